import Verif.Lemmas.Euler
namespace PK
open Matrix Spec Real

set_option maxHeartbeats 4000000 in
theorem euler_roundtrip_matrix (R : M3) (hR : IsRot R) (a b c : XYZ) (hab : a ≠ b) (hbc : b ≠ c)
    (hg : ¬ Gimbal R a c) :
    ∃ e, matrixToEulerAngles R (convName a b c) = .ok e ∧ seqRot true a b c e = R := by
  have hE := hR.eqs
  obtain ⟨⟩ := hE
  unfold Gimbal at hg
  set x := R (XYZidx a) (XYZidx c) with hx
  have hx1 : x ^ 2 ≤ 1 := hR.entry_sq_le _ _
  have hlt : x ^ 2 < 1 := lt_of_le_of_ne hx1 hg
  set r := Real.sqrt (1 - x ^ 2) with hr
  have hrpos : 0 < r := Real.sqrt_pos.2 (by linarith)
  have hr2 : r ^ 2 = 1 - x ^ 2 := Real.sq_sqrt (by linarith)
  obtain ⟨as1, as2⟩ := cos_sin_arcsin hx1
  have hnx : (-x) ^ 2 ≤ 1 := by rw [neg_sq]; exact hx1
  obtain ⟨bs1, bs2⟩ := cos_sin_arcsin hnx
  rw [neg_sq, ← hr] at bs2
  obtain ⟨ac1, ac2⟩ := cos_sin_arccos hx1
  rw [← hr] at as2 ac2
  unfold matrixToEulerAngles
  rw [parseConvention_ok a b c hab hbc]
  refine ⟨_, rfl, ?_⟩
  unfold seqRot
  clear_value x r
  cases a <;> cases b <;> simp at hab <;> cases c <;> simp at hbc <;>
  · simp [XYZidx] at hx
    simp [elem_entries, axOf, indexFromLetter, angleFromTan]
    subst hx
    simp only [as1, as2, bs1, bs2, ac1, ac2]
    rw [(atan2_cos_sin hrpos ?_).1, (atan2_cos_sin hrpos ?_).1, (atan2_cos_sin hrpos ?_).2, (atan2_cos_sin hrpos ?_).2]
    · apply m3_ext9 <;> simp only [Matrix.of_apply, Matrix.cons_val] <;> field_simp <;> grind
    all_goals linarith
end PK

namespace PK
open Matrix Spec Real

theorem atan2_eq {y x r h : ℝ} (hr : 0 < r) (hy : y = r * sin h) (hx : x = r * cos h)
    (h1 : -π < h) (h2 : h ≤ π) : atan2 y x = h := by rw [hy, hx]; exact atan2_smul hr h1 h2

/-- canonical angle range of a convention: outer angles in `(-π, π]`, middle angle in the open
interval on which the first/last axes are not aligned -/
def EulerRange (a c : XYZ) (e : V3) : Prop :=
  -π < e 0 ∧ e 0 ≤ π ∧ -π < e 2 ∧ e 2 ≤ π ∧
  (if a = c then 0 < e 1 ∧ e 1 < π else -(π / 2) < e 1 ∧ e 1 < π / 2)

set_option maxHeartbeats 4000000 in
theorem euler_roundtrip_angles (e : V3) (a b c : XYZ) (hab : a ≠ b) (hbc : b ≠ c)
    (he : EulerRange a c e) :
    matrixToEulerAngles (seqRot true a b c e) (convName a b c) = .ok e := by
  unfold matrixToEulerAngles
  rw [parseConvention_ok a b c hab hbc]
  obtain ⟨h0, h0', h2, h2', h1⟩ := he
  simp only [Except.ok.injEq]
  unfold seqRot
  cases a <;> cases b <;> simp at hab <;> cases c <;> simp at hbc <;> simp at h1 <;>
  simp [elem_entries, axOf, indexFromLetter, angleFromTan] <;>
  apply v3_ext <;> simp <;>
  first
  | (apply atan2_eq (r := cos (e 1)) (Real.cos_pos_of_mem_Ioo ⟨h1.1, h1.2⟩) _ _ (by assumption) (by assumption) <;> ring)
  | (apply atan2_eq (r := sin (e 1)) (Real.sin_pos_of_pos_of_lt_pi h1.1 h1.2) _ _ (by assumption) (by assumption) <;> ring)
  | exact Real.arcsin_sin h1.1.le h1.2.le
  | exact Real.arccos_cos h1.1.le h1.2.le

end PK
