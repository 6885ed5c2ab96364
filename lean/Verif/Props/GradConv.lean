import Verif.Lemmas.TapeConv
import Verif.Props.Euler

namespace PK
open AD Filter Topology Finset Sum Spec
open scoped Classical

/-- **C130**: backpropagation through `quaternion_raw_multiply` delivers the derivative with respect to both quaternions, everywhere. -/
theorem C130_quaternion_raw_multiply (nr : NormRule) (x : Fin 4 ⊕ Fin 4 → ℝ) (g : Fin 4 → ℝ) :
    qMul.run (up x) = up (quaternionRawMultiply (toQ fun k => x (inl k)) (toQ fun k => x (inr k))).get ∧
    ∃ G, qMul.back nr (up x) (up g) = up G ∧
      IsVJP (fun x => (quaternionRawMultiply (toQ fun k => x (inl k)) (toQ fun k => x (inr k))).get) x g G :=
  vjp (f := fun x => (quaternionRawMultiply (toQ fun k => x (inl k)) (toQ fun k => x (inr k))).get)
    (Prog.good_of_smooth _ qMul_smooth x g) qMul_runR

/-- **C130**: so it does through `quaternion_invert`. -/
theorem C130_quaternion_invert (nr : NormRule) (x g : Fin 4 → ℝ) :
    qInv.run (up x) = up (quaternionInvert (toQ x)).get ∧
    ∃ G, qInv.back nr (up x) (up g) = up G ∧ IsVJP (fun x => (quaternionInvert (toQ x)).get) x g G :=
  vjp (f := fun x => (quaternionInvert (toQ x)).get) (Prog.good_of_smooth _ qInv_smooth x g) qInv_runR

/-- **C130**: so it does through `quaternion_apply`, with respect to the quaternion and to the point. -/
theorem C130_quaternion_apply (nr : NormRule) (x : Fin 4 ⊕ Fin 3 → ℝ) (g : Fin 3 → ℝ) :
    qApply.run (up x) = up (quaternionApply (toQ fun k => x (inl k)) fun k => x (inr k)) ∧
    ∃ G, qApply.back nr (up x) (up g) = up G ∧
      IsVJP (fun x => quaternionApply (toQ fun k => x (inl k)) fun k => x (inr k)) x g G :=
  vjp (f := fun x => quaternionApply (toQ fun k => x (inl k)) fun k => x (inr k)) (Prog.good_of_smooth _ qApply_smooth x g) qApply_runR

/-- a quaternion that is not a unit turns and stretches a point -/
example : quaternionApply (toQ ![1, 0, 0, 1]) ![1, 0, 0] = ![0, 2, 0] := by
  funext i
  fin_cases i <;> simp [quaternionApply, quaternionRawMultiply, quaternionInvert, toQ] <;> norm_num

/-- **C130**: backpropagation through `quaternion_multiply` delivers the derivative with respect to both quaternions where the
real part of the product is not zero.  Where it is, the result jumps. -/
theorem C130_quaternion_multiply (nr : NormRule) {x : Fin 4 ⊕ Fin 4 → ℝ}
    (h : (quaternionMultiply (toQ fun k => x (inl k)) (toQ fun k => x (inr k))).w ≠ 0) (g : Fin 4 → ℝ) :
    qMultiply.run (up x) = up (quaternionMultiply (toQ fun k => x (inl k)) (toQ fun k => x (inr k))).get ∧
    ∃ G, qMultiply.back nr (up x) (up g) = up G ∧
      IsVJP (fun x => (quaternionMultiply (toQ fun k => x (inl k)) (toQ fun k => x (inr k))).get) x g G := by
  refine vjp (f := fun x => (quaternionMultiply (toQ fun k => x (inl k)) (toQ fun k => x (inr k))).get) (qMultiply_good ?_ g) qMultiply_runR
  intro h0
  apply h
  simp only [quaternionMultiply, standardizeQuaternion]
  split_ifs
  · simp [h0]
  · exact h0

/-- **C130**: and through `standardize_quaternion`, where the real part is not zero. -/
theorem C130_standardize_quaternion (nr : NormRule) {x : Fin 4 → ℝ} (h : x 0 ≠ 0) (g : Fin 4 → ℝ) :
    qStd.run (up x) = up (standardizeQuaternion (toQ x)).get ∧
    ∃ G, qStd.back nr (up x) (up g) = up G ∧ IsVJP (fun x => (standardizeQuaternion (toQ x)).get) x g G :=
  vjp (f := fun x => (standardizeQuaternion (toQ x)).get) (qStdOn_good (v := id) h g) (qStdOn_runR (v := id))

/-- a product that is turned around -/
example : (quaternionMultiply (toQ ![0, 1, 0, 0]) (toQ ![1, 1, 0, 0])).w ≠ 0 ∧
    (quaternionRawMultiply (toQ ![0, 1, 0, 0]) (toQ ![1, 1, 0, 0])).w < 0 := by
  have h : quaternionRawMultiply (toQ ![0, 1, 0, 0]) (toQ ![1, 1, 0, 0]) = ⟨-1, 1, 0, 0⟩ := by simp [quaternionRawMultiply, toQ]
  rw [quaternionMultiply, h]
  norm_num [standardizeQuaternion]

/-- **C130**: backpropagation through `euler_angles_to_matrix` delivers the derivative of the product of the three
elementary rotations, for every convention and all angles. -/
theorem C130_euler_angles_to_matrix (nr : NormRule) {a b c : XYZ} (hab : a ≠ b) (hbc : b ≠ c) (x : V3) (g : Fin 3 × Fin 3 → ℝ) :
    ∃ p, eulMatRec (convName a b c) = .ok p ∧ p.run (up x) = up (fun q => seqRot true a b c x q.1 q.2) ∧
    ∃ G, p.back nr (up x) (up g) = up G ∧ IsVJP (fun x q => seqRot true a b c x q.1 q.2) x g G := by
  refine ⟨_, by rw [eulMatRec, parseConvention_ok a b c hab hbc]; rfl,
    vjp (f := fun x q => seqRot true a b c x q.1 q.2) (Prog.good_of_smooth _ (eulMat_smooth _) x g) fun x => ?_⟩
  rw [eulMat_runR]
  simp [seqRot, axisAngleRotation_eq]

/-- **C130**: conventions that the call refuses, it refuses when gradients are asked for. -/
theorem C130_refused (conv : List Char) (e : V3) (R : M3) (er : Err) :
    (eulerAnglesToMatrix e conv = .error er ↔ eulMatRec conv = .error er) ∧ (matrixToEulerAngles R conv = .error er ↔ matEulRec conv = .error er) := by
  unfold eulerAnglesToMatrix matrixToEulerAngles eulMatRec matEulRec
  cases parseConvention conv <;> simp [Except.map]

/-- **C130**, what holds for `matrix_to_euler_angles`: at every rotation away from gimbal lock whose outer angles are not half turns,
backpropagation delivers the derivative. -/
theorem C130_matrix_to_euler_angles_partial (nr : NormRule) {a b c : XYZ} (hab : a ≠ b) (hbc : b ≠ c) {f : M3 → V3}
    (hf : ∀ m, matrixToEulerAngles m (convName a b c) = .ok (f m)) {R : M3} (hR : IsRot R) (hg : ¬ Gimbal R a c)
    (h0 : f R 0 ≠ Real.pi) (h2 : f R 2 ≠ Real.pi) (g : Fin 3 → ℝ) :
    ∃ p, matEulRec (convName a b c) = .ok p ∧ p.run (up (ent R)) = up (f R) ∧
    ∃ G, p.back nr (up (ent R)) (up g) = up G ∧ IsVJP (fun x => f (toM x)) (ent R) g G := by
  have hpc := parseConvention_ok a b c hab hbc
  have hfe : ∀ m, f m = angles (axOf a) (axOf b) (axOf c) m := fun m => by
    have := hf m
    rw [matrixToEulerAngles_eq hpc] at this
    injection this with this
    exact this.symm
  have hmid := midVal_sq a c R
  have hout := fun i => outVal_sq hR hab hbc i
  have hle : R (XYZidx a) (XYZidx c) ^ 2 < 1 := by
    refine lt_of_le_of_ne ?_ hg
    have := hout 0
    have := sq_nonneg (outVal (axOf a) (axOf b) (axOf c) R (0, 0)); have := sq_nonneg (outVal (axOf a) (axOf b) (axOf c) R (0, 1))
    linarith
  refine ⟨_, by rw [matEulRec, hpc]; rfl, ?_⟩
  have := vjp (nr := nr) (x := ent R) (f := fun x => f (toM x)) (matEul_good (nr := nr) (axOf a) (axOf b) (axOf c) (m := R) (by nlinarith) (by nlinarith) (fun i => ?_) g)
    fun x => by rw [hfe, ← matEul_runR]; rfl
  · exact this
  · refine atan2_slit (by rw [hout i]; linarith) ?_
    fin_cases i
    · rw [hfe] at h0; exact h0
    · rw [hfe] at h2; exact h2

/-- no rotation, with three different axes -/
example (g : Fin 3 → ℝ) : ∃ p, matEulRec (convName .x .y .z) = .ok p ∧ ∃ G, p.back .maskScaled (up (ent 1)) (up g) = up G := by
  have hf : ∀ m, matrixToEulerAngles m (convName .x .y .z) = .ok (angles .X .Y .Z m) :=
    fun m => matrixToEulerAngles_eq (parseConvention_ok .x .y .z (by decide) (by decide)) m
  have h0 : PK.atan2 0 1 = 0 := by
    have := atan2_smul (r := 1) (h := 0) one_pos (by linarith [Real.pi_pos]) Real.pi_pos.le
    simpa using this
  obtain ⟨p, hp, -, G, hG, -⟩ := C130_matrix_to_euler_angles_partial .maskScaled (by decide) (by decide) hf isRot_one
    (by show ¬ (1 : M3) 0 2 ^ 2 = 1; simp)
    (by show PK.atan2 (-1 * (1 : M3) 1 2) (1 * (1 : M3) 2 2) ≠ Real.pi; simp [h0, Real.pi_ne_zero.symm])
    (by show PK.atan2 (-1 * (1 : M3) 0 1) (1 * (1 : M3) 0 0) ≠ Real.pi; simp [h0, Real.pi_ne_zero.symm]) g
  exact ⟨p, hp, G, hG⟩

/-- **C130 is violated** by `matrix_to_euler_angles` at gimbal lock: whatever the loss, the gradients of the four entries of which the
outer angles are computed are NaN. -/
theorem C130_fails_gimbal_lock (nr : NormRule) {a b c : XYZ} (hab : a ≠ b) (hbc : b ≠ c) {R : M3} (hR : IsRot R) (hg : Gimbal R a c) (g : Fin 3 → ℝ)
    {q : Fin 3 × Fin 3} (hq : (q.1 ≠ XYZidx a ∧ q.2 = XYZidx c) ∨ (q.1 = XYZidx a ∧ q.2 ≠ XYZidx c)) :
    ∃ p, matEulRec (convName a b c) = .ok p ∧ p.back nr (up (ent R)) (up g) q = .nan := by
  refine ⟨_, by rw [matEulRec, parseConvention_ok a b c hab hbc]; rfl, ?_⟩
  obtain ⟨k, hk⟩ := outOps_entries hab hbc hq
  rw [← hk]
  have hout := fun i => outVal_sq hR hab hbc i
  unfold Gimbal at hg
  refine matEul_nan (by rw [midVal_sq, hg]) (fun k => ?_) (up g) k
  obtain ⟨i, s⟩ := k
  have := hout i
  rw [hg] at this
  have h1 := sq_nonneg (outVal (axOf a) (axOf b) (axOf c) R (i, 0)); have h2 := sq_nonneg (outVal (axOf a) (axOf b) (axOf c) R (i, 1))
  fin_cases s
  · exact pow_eq_zero_iff (two_ne_zero) |>.1 (show outVal _ _ _ R (i, 0) ^ 2 = 0 by linarith)
  · exact pow_eq_zero_iff (two_ne_zero) |>.1 (show outVal _ _ _ R (i, 1) ^ 2 = 0 by linarith)

/-- no rotation at all, with equal outer axes -/
example : ∃ p, matEulRec (convName .z .y .z) = .ok p ∧ p.back .maskDirection (up (ent 1)) (up ![0, 1, 0]) (0, 2) = .nan :=
  C130_fails_gimbal_lock .maskDirection (by decide) (by decide) isRot_one (by simp [Gimbal, XYZidx]) _ (Or.inl (by decide))

/-- **C130**: backpropagation through `rotation_6d_to_matrix` delivers the derivative when the first vector is longer than `1e-12` and the
distance of the second from its line is not exactly `1e-12`. -/
theorem C130_rotation_6d_to_matrix (nr : NormRule) {x : Fin 6 → ℝ} (h1 : 1e-12 < PK.norm3 ![x 0, x 1, x 2])
    (h2 : (PK.norm3 fun k => ![x 3, x 4, x 5] k - dot ![x 0, x 1, x 2] ![x 3, x 4, x 5] / dot ![x 0, x 1, x 2] ![x 0, x 1, x 2] * ![x 0, x 1, x 2] k) ≠ 1e-12)
    (g : Fin 3 × Fin 3 → ℝ) :
    rot6d.run (up x) = up (fun p => rotation6dToMatrix (![x 0, x 1, x 2], ![x 3, x 4, x 5]) p.1 p.2) ∧
    ∃ G, rot6d.back nr (up x) (up g) = up G ∧
      IsVJP (fun x p => rotation6dToMatrix (![x 0, x 1, x 2], ![x 3, x 4, x 5]) p.1 p.2) x g G :=
  vjp (f := fun x p => rotation6dToMatrix (![x 0, x 1, x 2], ![x 3, x 4, x 5]) p.1 p.2)
    (rot6d_good h1.ne' (by rw [across_eq h1]; exact h2) g) rot6d_runR

/-- **C130**: also when the first vector is zero, as in a network that has just been set up with zeros. -/
theorem C130_rotation_6d_zero (nr : NormRule) {x : Fin 6 → ℝ} (h1 : x 0 = 0 ∧ x 1 = 0 ∧ x 2 = 0) (h2 : PK.norm3 ![x 3, x 4, x 5] ≠ 1e-12)
    (g : Fin 3 × Fin 3 → ℝ) :
    ∃ G, rot6d.back nr (up x) (up g) = up G ∧
      IsVJP (fun x p => rotation6dToMatrix (![x 0, x 1, x 2], ![x 3, x 4, x 5]) p.1 p.2) x g G := by
  have hz : ![x 0, x 1, x 2] = 0 := by funext i; fin_cases i; exacts [h1.1, h1.2.1, h1.2.2]
  have hn : PK.norm3 ![x 0, x 1, x 2] = 0 := norm3_eq_zero.2 hz
  refine (vjp (f := fun x p => rotation6dToMatrix (![x 0, x 1, x 2], ![x 3, x 4, x 5]) p.1 p.2)
    (rot6d_good (by rw [hn]; norm_num) ?_ g) rot6d_runR).2
  have : across (fNormalize ![x 0, x 1, x 2]) ![x 3, x 4, x 5] = ![x 3, x 4, x 5] := by
    funext k
    rw [hz]
    simp [across, fNormalize]
  rw [this]
  exact h2

/-- the second vector along the first: nothing remains of it -/
example (g : Fin 3 × Fin 3 → ℝ) : ∃ G, rot6d.back .maskDirection (up ![1, 0, 0, 2, 0, 0]) (up g) = up G ∧
    IsVJP (fun x p => rotation6dToMatrix (![x 0, x 1, x 2], ![x 3, x 4, x 5]) p.1 p.2) ![1, 0, 0, 2, 0, 0] g G := by
  have hn : PK.norm3 (![1, 0, 0] : V3) = 1 := by simp [PK.norm3, dot]
  refine (C130_rotation_6d_to_matrix .maskDirection (x := ![1, 0, 0, 2, 0, 0]) ?_ ?_ g).2
  · show 1e-12 < PK.norm3 (![1, 0, 0] : V3); rw [hn]; norm_num
  · have : (fun k => (![2, 0, 0] : V3) k - dot ![1, 0, 0] ![2, 0, 0] / dot ![1, 0, 0] ![1, 0, 0] * (![1, 0, 0] : V3) k) = 0 := by
      funext k; fin_cases k <;> simp [dot]
    show (PK.norm3 fun k => (![2, 0, 0] : V3) k - dot ![1, 0, 0] ![2, 0, 0] / dot ![1, 0, 0] ![1, 0, 0] * (![1, 0, 0] : V3) k) ≠ 1e-12
    rw [this, norm3_eq_zero.2 rfl]
    norm_num

/-- **C130**: backpropagation through `se3_9d_to_matrix44` delivers the derivative when the two vectors span a plane, by more than `1e-12`. -/
theorem C130_se3_9d_to_matrix44 (nr : NormRule) {x : Fin 9 → ℝ} (h1 : 1e-12 < PK.norm3 ![x 0, x 1, x 2])
    (h2 : 1e-12 < PK.norm3 fun k => ![x 3, x 4, x 5] k - dot ![x 0, x 1, x 2] ![x 3, x 4, x 5] / dot ![x 0, x 1, x 2] ![x 0, x 1, x 2] * ![x 0, x 1, x 2] k)
    (g : Fin 4 × Fin 4 → ℝ) :
    se3Mat.run (up x) = up (fun p => se3_9dToMatrix44 ((![x 0, x 1, x 2], ![x 3, x 4, x 5]), ![x 6, x 7, x 8]) p.1 p.2) ∧
    ∃ G, se3Mat.back nr (up x) (up g) = up G ∧
      IsVJP (fun x p => se3_9dToMatrix44 ((![x 0, x 1, x 2], ![x 3, x 4, x 5]), ![x 6, x 7, x 8]) p.1 p.2) x g G :=
  vjp (f := fun x p => se3_9dToMatrix44 ((![x 0, x 1, x 2], ![x 3, x 4, x 5]), ![x 6, x 7, x 8]) p.1 p.2)
    (Prog.good_of_regAt _ _ (se3Mat_regAt h1 (by rw [across_eq h1]; exact h2)) g) se3Mat_runR

/-- **C130**: backpropagation through `pos_rot_to_matrix` delivers the derivative with respect to position and quaternion, at every quaternion
but zero. -/
theorem C130_pos_rot_to_matrix (nr : NormRule) {x : Fin 3 ⊕ Fin 4 → ℝ} (h : ∃ k, x (inr k) ≠ 0) (g : Fin 4 × Fin 4 → ℝ) :
    posRotMat.run (up x) = up (fun p => posRotToMatrix (fun k => x (inl k)) (fun k => x (inr k)) p.1 p.2) ∧
    ∃ G, posRotMat.back nr (up x) (up g) = up G ∧
      IsVJP (fun x p => posRotToMatrix (fun k => x (inl k)) (fun k => x (inr k)) p.1 p.2) x g G :=
  vjp (f := fun x p => posRotToMatrix (fun k => x (inl k)) (fun k => x (inr k)) p.1 p.2)
    (Prog.good_of_regAt _ _ (posRotMat_regAt h) g) posRotMat_runR

end PK
