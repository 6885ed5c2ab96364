import Verif.Lemmas.QuatRound
import Verif.Lemmas.Quat

/-!
# Rounding errors of the product of quaternions
-/

namespace PK
open Spec Matrix

/-- componentwise distance of quaternions -/
def QNear (η : ℝ) (a b : Quat) : Prop := ∀ i, |a.get i - b.get i| ≤ η

theorem quat_sum_le {q : Quat} (h : IsUnitQ q) : |q.w| + |q.x| + |q.y| + |q.z| ≤ 2 := by
  unfold IsUnitQ at h
  rw [← sq_abs q.w, ← sq_abs q.x, ← sq_abs q.y, ← sq_abs q.z] at h
  set a := |q.w|; set b := |q.x|; set c := |q.y|; set d := |q.z|
  have : (a + b + c + d) ^ 2 ≤ 2 ^ 2 := by
    nlinarith [sq_nonneg (a - b), sq_nonneg (a - c), sq_nonneg (a - d), sq_nonneg (b - c), sq_nonneg (b - d), sq_nonneg (c - d)]
  exact le_of_sq_le_sq this (by norm_num)

theorem rnd_near_le (m : Machine) {x y e M τ : ℝ} (K : ℝ) (hu : m.u ≤ τ) (h0 : 0 ≤ τ) (h : |x - y| ≤ e) (hM : |y| ≤ M) (hK : M + e ≤ K) :
    |m.rnd x - y| ≤ e + K * τ := by
  have h2 := mul_le_mul_of_nonneg_left hK h0
  exact (rnd_near m hu h hM).trans (by linarith)

/-- a sum of four products, rounded at every step -/
theorem prod4_near (m : Machine) {τ ea eb : ℝ} (hu : m.u ≤ τ) (h0 : 0 ≤ τ) (h1 : τ ≤ 1 / 100) (ha : ea ≤ 1 / 20) (hb : eb ≤ 1 / 20)
    {s2 s3 s4 : ℝ} (g2 : |s2| = 1) (g3 : |s3| = 1) (g4 : |s4| = 1)
    {a1 a2 a3 a4 b1 b2 b3 b4 a1' a2' a3' a4' b1' b2' b3' b4' : ℝ} (la : |a1| + |a2| + |a3| + |a4| ≤ 2)
    (lb : |b1| + |b2| + |b3| + |b4| ≤ 2) (u1 : |a1| ≤ 1) (u2 : |a2| ≤ 1) (u3 : |a3| ≤ 1) (u4 : |a4| ≤ 1) (v1 : |b1| ≤ 1)
    (v2 : |b2| ≤ 1) (v3 : |b3| ≤ 1) (v4 : |b4| ≤ 1) (hs : |a1 * b1 + s2 * (a2 * b2) + s3 * (a3 * b3) + s4 * (a4 * b4)| ≤ 1)
    (ka1 : |a1' - a1| ≤ ea) (ka2 : |a2' - a2| ≤ ea) (ka3 : |a3' - a3| ≤ ea) (ka4 : |a4' - a4| ≤ ea)
    (kb1 : |b1' - b1| ≤ eb) (kb2 : |b2' - b2| ≤ eb) (kb3 : |b3' - b3| ≤ eb) (kb4 : |b4' - b4| ≤ eb) :
    |m.rnd (m.rnd (m.rnd (m.rnd (a1' * b1') + s2 * m.rnd (a2' * b2')) + s3 * m.rnd (a3' * b3')) + s4 * m.rnd (a4' * b4')) -
      (a1 * b1 + s2 * (a2 * b2) + s3 * (a3 * b3) + s4 * (a4 * b4))| ≤ 2 * (ea + eb) + 4 * ea * eb + 12 * τ := by
  have ea0 := (abs_nonneg _).trans ka1
  have eb0 := (abs_nonneg _).trans kb1
  have hab : ea * eb ≤ 1 / 400 := by nlinarith
  have hab0 : 0 ≤ ea * eb := mul_nonneg ea0 eb0
  have one : ∀ {a b a' b' : ℝ}, |a| ≤ 1 → |b| ≤ 1 → |a' - a| ≤ ea → |b' - b| ≤ eb →
      |m.rnd (a' * b') - a * b| ≤ |a| * eb + |b| * ea + ea * eb + 1.11 * τ ∧ |a * b| ≤ 1 ∧
        |a| * eb + |b| * ea + ea * eb ≤ 0.11 := by
    intro a b a' b' ha1 hb1 ka kb
    have hM : |a * b| ≤ 1 := by
      rw [abs_mul]; exact mul_le_one₀ ha1 (abs_nonneg _) hb1
    have hd : |a| * eb + |b| * ea + ea * eb ≤ 0.11 := by
      have := mul_le_mul_of_nonneg_right ha1 eb0
      have := mul_le_mul_of_nonneg_right hb1 ea0
      norm_num; linarith
    exact ⟨rnd_near_le m 1.11 hu h0 (mul_near ka le_rfl kb le_rfl) hM (by linarith), hM, hd⟩
  have sgn : ∀ {s x y e : ℝ}, |s| = 1 → |x - y| ≤ e → |s * x - s * y| ≤ e := by
    intro s x y e hs h
    rw [← mul_sub, abs_mul, hs, one_mul]; exact h
  have sgn1 : ∀ {s x e : ℝ}, |s| = 1 → |x| ≤ e → |s * x| ≤ e := by
    intro s x e hs h
    rw [abs_mul, hs, one_mul]; exact h
  obtain ⟨p1, M1, d1⟩ := one u1 v1 ka1 kb1
  obtain ⟨p2, M2, d2⟩ := one u2 v2 ka2 kb2
  obtain ⟨p3, M3, d3⟩ := one u3 v3 ka3 kb3
  obtain ⟨p4, M4, d4⟩ := one u4 v4 ka4 kb4
  have hS : |a1| * eb + |b1| * ea + ea * eb + (|a2| * eb + |b2| * ea + ea * eb) + (|a3| * eb + |b3| * ea + ea * eb) +
      (|a4| * eb + |b4| * ea + ea * eb) ≤ 2 * (ea + eb) + 4 * ea * eb := by
    have := mul_le_mul_of_nonneg_right la eb0
    have := mul_le_mul_of_nonneg_right lb ea0
    linarith
  set D1 := |a1| * eb + |b1| * ea + ea * eb
  set D2 := |a2| * eb + |b2| * ea + ea * eb
  set D3 := |a3| * eb + |b3| * ea + ea * eb
  set D4 := |a4| * eb + |b4| * ea + ea * eb
  have m1 := (abs_add_le (a1 * b1) (s2 * (a2 * b2))).trans (add_le_add M1 (sgn1 g2 M2))
  have m2 := (abs_add_le (a1 * b1 + s2 * (a2 * b2)) (s3 * (a3 * b3))).trans (add_le_add m1 (sgn1 g3 M3))
  have n2 := rnd_near_le m 2.25 hu h0 (add_near p1 (sgn g2 p2)) m1 (by linarith)
  have n3 := rnd_near_le m 3.5 hu h0 (add_near n2 (sgn g3 p3)) m2 (by linarith)
  have n4 := rnd_near_le m 1.55 hu h0 (add_near n3 (sgn g4 p4)) hs (by linarith)
  refine n4.trans ?_
  linarith

theorem rawMul_unit {a b : Quat} (ha : IsUnitQ a) (hb : IsUnitQ b) : IsUnitQ (quaternionRawMultiply a b) := by
  unfold IsUnitQ at *
  have := normSq_rawMul a b
  unfold Quat.normSq at this
  have e1 : a.w * a.w + a.x * a.x + a.y * a.y + a.z * a.z = 1 := by linarith
  have e2 : b.w * b.w + b.x * b.x + b.y * b.y + b.z * b.z = 1 := by linarith
  rw [e1, e2] at this
  linarith

theorem quaternionRawMultiplyFl_near (m : Machine) {τ ea eb : ℝ} (hu : m.u ≤ τ) (h0 : 0 ≤ τ) (h1 : τ ≤ 1 / 100)
    (ha : ea ≤ 1 / 20) (hb : eb ≤ 1 / 20) {a b a' b' : Quat} (ua : IsUnitQ a) (ub : IsUnitQ b) (na : QNear ea a' a)
    (nb : QNear eb b' b) :
    QNear (2 * (ea + eb) + 4 * ea * eb + 12 * τ) (quaternionRawMultiplyFl m a' b') (quaternionRawMultiply a b) := by
  have la := quat_sum_le ua
  have lb := quat_sum_le ub
  have A := quat_abs_le ua
  have B := quat_abs_le ub
  have A0 : |a.w| ≤ 1 := A 0
  have A1 : |a.x| ≤ 1 := A 1
  have A2 : |a.y| ≤ 1 := A 2
  have A3 : |a.z| ≤ 1 := A 3
  have B0 : |b.w| ≤ 1 := B 0
  have B1 : |b.x| ≤ 1 := B 1
  have B2 : |b.y| ≤ 1 := B 2
  have B3 : |b.z| ≤ 1 := B 3
  have k0 : |a'.w - a.w| ≤ ea := na 0
  have k1 : |a'.x - a.x| ≤ ea := na 1
  have k2 : |a'.y - a.y| ≤ ea := na 2
  have k3 : |a'.z - a.z| ≤ ea := na 3
  have l0 : |b'.w - b.w| ≤ eb := nb 0
  have l1 : |b'.x - b.x| ≤ eb := nb 1
  have l2 : |b'.y - b.y| ≤ eb := nb 2
  have l3 : |b'.z - b.z| ≤ eb := nb 3
  have hP := quat_abs_le (rawMul_unit ua ub)
  have P0 := hP 0
  have P1 := hP 1
  have P2 := hP 2
  have P3 := hP 3
  simp only [Quat.get, quaternionRawMultiply, Matrix.cons_val] at P0 P1 P2 P3
  have p1 : |(1 : ℝ)| = 1 := abs_one
  have n1 : |(-1 : ℝ)| = 1 := by norm_num
  intro i
  fin_cases i
  · have := prod4_near m hu h0 h1 ha hb n1 n1 n1 la lb A0 A1 A2 A3 B0 B1 B2 B3 (by convert P0 using 2; ring) k0 k1 k2 k3 l0 l1 l2 l3
    simp only [Quat.get, quaternionRawMultiplyFl, quaternionRawMultiply, Matrix.cons_val]
    convert this using 2
    simp only [neg_one_mul, ← sub_eq_add_neg]
    rfl
  · have := prod4_near m hu h0 h1 ha hb p1 p1 n1 la (by linarith : |b.x| + |b.w| + |b.z| + |b.y| ≤ 2) A0 A1 A2 A3 B1 B0 B3 B2
      (by convert P1 using 2; ring) k0 k1 k2 k3 l1 l0 l3 l2
    simp only [Quat.get, quaternionRawMultiplyFl, quaternionRawMultiply, Matrix.cons_val]
    convert this using 2
    simp only [neg_one_mul, one_mul, ← sub_eq_add_neg]
    rfl
  · have := prod4_near m hu h0 h1 ha hb n1 p1 p1 la (by linarith : |b.y| + |b.z| + |b.w| + |b.x| ≤ 2) A0 A1 A2 A3 B2 B3 B0 B1
      (by convert P2 using 2; ring) k0 k1 k2 k3 l2 l3 l0 l1
    simp only [Quat.get, quaternionRawMultiplyFl, quaternionRawMultiply, Matrix.cons_val]
    convert this using 2
    simp only [neg_one_mul, one_mul, ← sub_eq_add_neg]
    rfl
  · have := prod4_near m hu h0 h1 ha hb p1 n1 p1 la (by linarith : |b.z| + |b.y| + |b.x| + |b.w| ≤ 2) A0 A1 A2 A3 B3 B2 B1 B0
      (by convert P3 using 2; ring) k0 k1 k2 k3 l3 l2 l1 l0
    simp only [Quat.get, quaternionRawMultiplyFl, quaternionRawMultiply, Matrix.cons_val]
    convert this using 2
    simp only [neg_one_mul, one_mul, ← sub_eq_add_neg]
    rfl

theorem scaleQ_get (c : ℝ) (q : Quat) (i : Fin 4) : (scaleQ c q).get i = c * q.get i := by fin_cases i <;> rfl

theorem scaleQ_unit {c : ℝ} (hc : c = 1 ∨ c = -1) {q : Quat} (h : IsUnitQ q) : IsUnitQ (scaleQ c q) := by
  unfold IsUnitQ scaleQ at *
  rcases hc with rfl | rfl <;> simpa using h

theorem invert_unit {q : Quat} (h : IsUnitQ q) : IsUnitQ (quaternionInvert q) := by
  unfold IsUnitQ quaternionInvert at *
  simp only; linarith

theorem invert_near {η : ℝ} {a b : Quat} (h : QNear η a b) : QNear η (quaternionInvert a) (quaternionInvert b) := by
  intro i
  have := h i
  have neg : ∀ {x y : ℝ}, |x - y| ≤ η → |x * -1 - y * -1| ≤ η := fun {x y} h => by
    rw [← sub_mul, abs_mul]; simpa using h
  fin_cases i
  · simpa [Quat.get, quaternionInvert] using this
  · exact neg this
  · exact neg this
  · exact neg this

/-- the difference quaternion of the pose error: within a few errors of one of the two exact ones, with non-negative real part -/
theorem diffFl_near (m : Machine) {τ ea eb : ℝ} (hu : m.u ≤ τ) (h0 : 0 ≤ τ) (h1 : τ ≤ 1 / 100)
    (ha : ea ≤ 1 / 20) (hb : eb ≤ 1 / 20) {a b a' b' : Quat} (ua : IsUnitQ a) (ub : IsUnitQ b) {σ ρ : ℝ} (hσ : σ = 1 ∨ σ = -1)
    (hρ : ρ = 1 ∨ ρ = -1) (na : QNear ea a' (scaleQ σ a)) (nb : QNear eb b' (scaleQ ρ b)) :
    let q := quaternionMultiplyFl m a' (quaternionInvert b')
    0 ≤ q.w ∧ ∃ υ : ℝ, (υ = 1 ∨ υ = -1) ∧
      QNear (2 * (ea + eb) + 4 * ea * eb + 12 * τ) q (scaleQ υ (quaternionRawMultiply a (quaternionInvert b))) := by
  intro q
  have key := quaternionRawMultiplyFl_near m hu h0 h1 ha hb (scaleQ_unit hσ ua) (invert_unit (scaleQ_unit hρ ub)) na (invert_near nb)
  have e : quaternionRawMultiply (scaleQ σ a) (quaternionInvert (scaleQ ρ b)) =
      scaleQ (σ * ρ) (quaternionRawMultiply a (quaternionInvert b)) := by
    ext <;> simp only [quaternionRawMultiply, quaternionInvert, scaleQ] <;> ring
  rw [e] at key
  have hp : σ * ρ = 1 ∨ σ * ρ = -1 := by rcases hσ with rfl | rfl <;> rcases hρ with rfl | rfl <;> norm_num
  by_cases hw : (quaternionRawMultiplyFl m a' (quaternionInvert b')).w < 0
  · have eq : q = negQ (quaternionRawMultiplyFl m a' (quaternionInvert b')) := by
      show standardizeQuaternion _ = _
      rw [standardizeQuaternion, if_pos hw]; rfl
    refine ⟨by rw [eq]; simp only [negQ]; linarith, -(σ * ρ), by rcases hp with h | h <;> rw [h] <;> norm_num, ?_⟩
    intro i
    have := key i
    rw [scaleQ_get] at this ⊢
    have hg : ∀ p : Quat, (negQ p).get i = -p.get i := fun p => by fin_cases i <;> rfl
    rw [eq, hg, neg_mul, ← neg_sub', abs_neg]
    exact this
  · have eq : q = quaternionRawMultiplyFl m a' (quaternionInvert b') := by
      show standardizeQuaternion _ = _
      rw [standardizeQuaternion, if_neg hw]
    exact ⟨by rw [eq]; exact not_lt.1 hw, σ * ρ, hp, by rw [eq]; exact key⟩

end PK
