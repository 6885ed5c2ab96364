import Verif.Lemmas.Euler2

/-!
# Euler angles: C40, C41 (and C47 for `quaternion_from_euler`)
-/

namespace PK
open Matrix Spec Real

/-! ## C41 -/

/-- C41: for each of the 24 axis sequences (static or rotating, neighbouring axes distinct) and all
angles, the quaternion is unit and its matrix is the product of elementary rotations named by the
sequence. -/
theorem C41_quaternion_from_euler (rotating : Bool) (a b c : XYZ) (hab : a ≠ b) (hbc : b ≠ c) (e : V3) :
    ∃ q e', quaternionFromEuler e (axesName rotating a b c) = .ok (q, e') ∧ IsUnitQ q ∧
      quaternionToMatrix q = seqRot rotating a b c e := by
  obtain ⟨e', h⟩ := quaternionFromEuler_eq rotating a b c hab hbc e
  exact ⟨_, e', h, isUnitQ_normSq.2 (seqQ_normSq _ _ _ _ _), seqQ_matrix _ _ _ _ _⟩

/-- C41: an unknown sequence raises (KeyError). -/
theorem C41_unknown_axes (axes : List Char)
    (h : ∀ (r : Bool) (a b c : XYZ), a ≠ b → b ≠ c → axes.map Char.toLower ≠ axesName r a b c) (e : V3) :
    quaternionFromEuler e axes = .error .keyError := by
  have hl : axes2tuple.lookup (axes.map Char.toLower) = none := by
    rw [List.lookup_eq_none_iff]
    intro p hp
    have key : ∃ (r : Bool) (a b c : XYZ), a ≠ b ∧ b ≠ c ∧ p.1 = axesName r a b c := by
      fin_cases hp
      exacts [⟨false, .x, .y, .z, by decide, by decide, rfl⟩, ⟨false, .x, .y, .x, by decide, by decide, rfl⟩,
        ⟨false, .x, .z, .y, by decide, by decide, rfl⟩, ⟨false, .x, .z, .x, by decide, by decide, rfl⟩,
        ⟨false, .y, .z, .x, by decide, by decide, rfl⟩, ⟨false, .y, .z, .y, by decide, by decide, rfl⟩,
        ⟨false, .y, .x, .z, by decide, by decide, rfl⟩, ⟨false, .y, .x, .y, by decide, by decide, rfl⟩,
        ⟨false, .z, .x, .y, by decide, by decide, rfl⟩, ⟨false, .z, .x, .z, by decide, by decide, rfl⟩,
        ⟨false, .z, .y, .x, by decide, by decide, rfl⟩, ⟨false, .z, .y, .z, by decide, by decide, rfl⟩,
        ⟨true, .z, .y, .x, by decide, by decide, rfl⟩, ⟨true, .x, .y, .x, by decide, by decide, rfl⟩,
        ⟨true, .y, .z, .x, by decide, by decide, rfl⟩, ⟨true, .x, .z, .x, by decide, by decide, rfl⟩,
        ⟨true, .x, .z, .y, by decide, by decide, rfl⟩, ⟨true, .y, .z, .y, by decide, by decide, rfl⟩,
        ⟨true, .z, .x, .y, by decide, by decide, rfl⟩, ⟨true, .y, .x, .y, by decide, by decide, rfl⟩,
        ⟨true, .y, .x, .z, by decide, by decide, rfl⟩, ⟨true, .z, .x, .z, by decide, by decide, rfl⟩,
        ⟨true, .x, .y, .z, by decide, by decide, rfl⟩, ⟨true, .z, .y, .z, by decide, by decide, rfl⟩]
    obtain ⟨r, a, b, c, hab, hbc, hp1⟩ := key
    have := h r a b c hab hbc
    rw [← hp1] at this
    simpa using this
  unfold quaternionFromEuler
  rw [hl]

/-- the URDF convention is one of them -/
example (e : V3) : ∃ q e', quaternionFromEuler e ['s', 'x', 'y', 'z'] = .ok (q, e') ∧ IsUnitQ q ∧
    quaternionToMatrix q = elem .z (e 2) * elem .y (e 1) * elem .x (e 0) :=
  C41_quaternion_from_euler false .x .y .z (by decide) (by decide) e

/-! ## C40 -/

/-- C40: `euler_angles_to_matrix` is the product of elementary rotations of the convention. -/
theorem C40_euler_angles_to_matrix (a b c : XYZ) (hab : a ≠ b) (hbc : b ≠ c) (e : V3) :
    eulerAnglesToMatrix e (convName a b c) = .ok (seqRot true a b c e) :=
  eulerAnglesToMatrix_ok a b c hab hbc e

/-- C40 (part): for each of the 12 conventions, every rotation away from gimbal lock survives the
round trip.  Missing from the full statement (every rotation): gimbal lock, where it is false,
see `C40_gimbal_lock_fails`. -/
theorem C40_matrix_roundtrip_partial (R : M3) (hR : IsRot R) (a b c : XYZ) (hab : a ≠ b) (hbc : b ≠ c)
    (hg : ¬ Gimbal R a c) :
    ∃ e, matrixToEulerAngles R (convName a b c) = .ok e ∧
      eulerAnglesToMatrix e (convName a b c) = .ok R := by
  obtain ⟨e, h1, h2⟩ := euler_roundtrip_matrix R hR a b c hab hbc hg
  exact ⟨e, h1, by rw [eulerAnglesToMatrix_ok a b c hab hbc, h2]⟩

/-- C40: angles in the canonical range are recovered exactly. -/
theorem C40_angles_roundtrip (e : V3) (a b c : XYZ) (hab : a ≠ b) (hbc : b ≠ c)
    (he : EulerRange a c e) :
    ∃ R, eulerAnglesToMatrix e (convName a b c) = .ok R ∧
      matrixToEulerAngles R (convName a b c) = .ok e :=
  ⟨_, eulerAnglesToMatrix_ok a b c hab hbc e, euler_roundtrip_angles e a b c hab hbc he⟩

/-- C40 is false at gimbal lock: `R = Rx(π/2) Ry(π/2)` is a rotation whose XYZ Euler angles, as
computed, give back a different matrix. -/
theorem C40_gimbal_lock_fails :
    ∃ R e R', IsRot R ∧ matrixToEulerAngles R ['X', 'Y', 'Z'] = .ok e ∧
      eulerAnglesToMatrix e ['X', 'Y', 'Z'] = .ok R' ∧ R' ≠ R := by
  refine ⟨!![0, 0, 1; 1, 0, 0; 0, 1, 0], ![0, π / 2, 0], elem .y (π / 2), ?_, ?_, ?_, ?_⟩
  · apply isRot_of_eqs <;> simp [Matrix.det_fin_three]
  · have hz : atan2 0 0 = 0 := by
      unfold atan2
      rw [show (⟨0, 0⟩ : ℂ) = 0 from rfl, Complex.arg_zero]
    have := parseConvention_ok .x .y .z (by decide) (by decide)
    simp only [convName, XYZ.upper] at this
    unfold matrixToEulerAngles
    rw [this]
    simp [axOf, indexFromLetter, angleFromTan, hz]
  · have := eulerAnglesToMatrix_ok .x .y .z (by decide) (by decide) ![0, π / 2, 0]
    simp only [convName, XYZ.upper] at this
    rw [this]
    congr 1
    simp only [seqRot, if_true, elem_entries]
    apply m3_ext9 <;> simp [Matrix.mul_apply, Fin.sum_univ_three]
  · intro h
    have := congrFun (congrFun h 1) 1
    rw [elem_entries] at this
    simp at this

/-- C40: conventions that are not three letters of X, Y, Z with distinct neighbours raise ValueError,
in both directions. -/
theorem C40_invalid_convention (conv : List Char)
    (h : ∀ a b c : XYZ, a ≠ b → b ≠ c → conv ≠ convName a b c) (e : V3) (R : M3) :
    eulerAnglesToMatrix e conv = .error .valueError ∧ matrixToEulerAngles R conv = .error .valueError := by
  have hp : parseConvention conv = .error .valueError := by
    unfold parseConvention
    split
    · rename_i x y z
      split_ifs with h1
      · rfl
      · split
        · rename_i a' b' c' ha hb hc
          exfalso
          have key : ∀ (ch : Char) (a : Ax), letterAx ch = some a → ∃ v : XYZ, ch = v.upper := by
            intro ch a hh
            unfold letterAx at hh
            split_ifs at hh with e1 e2 e3
            · exact ⟨.x, e1⟩
            · exact ⟨.y, e2⟩
            · exact ⟨.z, e3⟩
          obtain ⟨va, rfl⟩ := key _ _ ha
          obtain ⟨vb, rfl⟩ := key _ _ hb
          obtain ⟨vc, rfl⟩ := key _ _ hc
          refine h va vb vc ?_ ?_ rfl
          · rintro rfl; exact h1 (Or.inl rfl)
          · rintro rfl; exact h1 (Or.inr rfl)
        · rfl
    · rfl
  unfold eulerAnglesToMatrix matrixToEulerAngles
  rw [hp]
  exact ⟨rfl, rfl⟩

example : EulerRange .x .z ![1, -1/2, 2] := by
  have := Real.two_le_pi
  refine ⟨by simp; linarith, by simp; linarith, by simp; linarith, by simp; linarith, ?_⟩
  rw [if_neg (by decide)]
  constructor <;> simp <;> linarith

/-! ## C47 (first half) -/

/-- C47 (part): exactly what a call does to the caller's tensor: first and last angle are halved, the
middle one is halved or kept; so it is unchanged when the outer angles (and the middle one) are zero.
Missing: unchanged for every input, which is false (`C47_quaternion_from_euler_mutates`). -/
theorem C47_quaternion_from_euler_partial (rotating : Bool) (a b c : XYZ) (hab : a ≠ b) (hbc : b ≠ c)
    (e q e') (h : quaternionFromEuler e (axesName rotating a b c) = .ok (q, e')) :
    e' 0 = e 0 / 2 ∧ e' 2 = e 2 / 2 ∧ (e' 1 = e 1 ∨ e' 1 = e 1 / 2) := by
  cases rotating <;> cases a <;> cases b <;> simp at hab <;> cases c <;> simp at hbc <;>
  simp [quaternionFromEuler, axesName, XYZ.lower, axes2tuple, List.lookup, nextAxis, Char.toLower] at h <;>
  rw [← h.2] <;> simp

/-- C47 is false: a call with roll 1, 'sxyz', changes the caller's tensor, and repeating the call on
the same tensor gives a different rotation. -/
theorem C47_quaternion_from_euler_mutates :
    ∃ e q e' q' e'', quaternionFromEuler e ['s', 'x', 'y', 'z'] = .ok (q, e') ∧ e' ≠ e ∧
      quaternionFromEuler e' ['s', 'x', 'y', 'z'] = .ok (q', e'') ∧ q' ≠ q := by
  obtain ⟨e1, h1⟩ := quaternionFromEuler_eq false .x .y .z (by decide) (by decide) ![π, 0, 0]
  obtain ⟨e2, h2⟩ := quaternionFromEuler_eq false .x .y .z (by decide) (by decide) e1
  have hp := C47_quaternion_from_euler_partial false .x .y .z (by decide) (by decide) _ _ _ h1
  simp at hp
  refine ⟨_, _, _, _, _, h1, ?_, h2, ?_⟩
  · intro h
    have := congrFun h 0
    rw [hp.1] at this
    simp at this
    linarith [Real.pi_pos]
  · intro h
    have hw := congrArg Quat.w h
    simp [seqQ, quaternionRawMultiply, elemQ, hp.1, hp.2.1, hp.2.2] at hw
    have : 0 < cos (π / 2 / 2) := Real.cos_pos_of_mem_Ioo ⟨by linarith [Real.pi_pos], by linarith [Real.pi_pos]⟩
    linarith

end PK
