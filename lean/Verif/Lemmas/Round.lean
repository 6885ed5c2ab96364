import Verif.Lemmas.Fro
import Verif.Model.Float
import Mathlib.Data.Int.Log
import Mathlib.Algebra.Order.Round

/-!
# Rounding errors of products and joint transforms
-/

namespace PK
open Spec Matrix

theorem Spec.Within.g_nonneg {g l : ℝ} {X' X : M4} (h : Within g l X' X) : 0 ≤ g := (fro_nonneg _).trans h.rot
theorem Spec.Within.l_nonneg {g l : ℝ} {X' X : M4} (h : Within g l X' X) : 0 ≤ l := (vlen_nonneg _).trans h.len

theorem Spec.Within.mono {g g' l l' : ℝ} {X' X : M4} (h : Within g l X' X) (hg : g ≤ g') (hl : l ≤ l') : Within g' l' X' X :=
  ⟨h.rigid, h.affine, h.rot.trans hg, h.len.trans hl,
    h.pos.trans (mul_le_mul hg hl h.l_nonneg (h.g_nonneg.trans hg))⟩

theorem Spec.within_refl {X : M4} (h : IsRigid X) : Within 0 (vlen (posPart X)) X X :=
  ⟨h, h.2, by simp [fro], le_rfl, by simp [vlen]⟩

theorem mul_rot_err (m : Machine) (A B : M4) (hB : IsAffine B) :
    ∃ E : M3, rotPart (m.mul A B) = rotPart A * rotPart B + E ∧ fro E ≤ m.γ * (fro (rotPart A) * fro (rotPart B)) := by
  refine ⟨rotPart (m.mul A B) - rotPart A * rotPart B, by abel, ?_⟩
  have hB3 : ∀ j : Fin 3, B 3 j.castSucc = 0 := fun j => by rw [hB]; fin_cases j <;> rfl
  have h : ∀ i j, |(rotPart (m.mul A B) - rotPart A * rotPart B) i j| ≤
      (m.γ • (absM (rotPart A) * absM (rotPart B))) i j := by
    intro i j
    obtain ⟨θ, hθ, he⟩ := m.mul_err A B i.castSucc j.castSucc
    have e1 : rotPart (m.mul A B) i j = m.mul A B i.castSucc j.castSucc := rfl
    rw [Matrix.sub_apply, e1, he, Fin.sum_univ_castSucc, Matrix.mul_apply, Matrix.smul_apply, Matrix.mul_apply]
    have hl : (Fin.last 3 : Fin 4) = 3 := rfl
    rw [hl, hB3 j]
    simp only [mul_zero, zero_mul, add_zero]
    rw [← Finset.sum_sub_distrib, smul_eq_mul, Finset.mul_sum]
    refine (Finset.abs_sum_le_sum_abs _ _).trans (Finset.sum_le_sum fun k _ => ?_)
    have : A i.castSucc k.castSucc * B k.castSucc j.castSucc * (1 + θ k.castSucc) - rotPart A i k * rotPart B k j =
        θ k.castSucc * (rotPart A i k * rotPart B k j) := by
      simp only [rotPart]; ring
    rw [this, abs_mul, abs_mul]
    exact mul_le_mul_of_nonneg_right (hθ _) (by positivity)
  refine (fro_le_of_abs h).trans ?_
  rw [fro_smul, abs_of_nonneg m.γ_nonneg]
  refine mul_le_mul_of_nonneg_left ((fro_mul_le _ _).trans ?_) m.γ_nonneg
  rw [fro_absM, fro_absM]

theorem mul_pos_err (m : Machine) (A B : M4) (hB : IsAffine B) :
    ∃ E : V3, posPart (m.mul A B) = rotPart A *ᵥ posPart B + posPart A + E ∧
      vlen E ≤ m.γ * (fro (rotPart A) * vlen (posPart B) + vlen (posPart A)) := by
  refine ⟨posPart (m.mul A B) - (rotPart A *ᵥ posPart B + posPart A), by abel, ?_⟩
  have hB3 : B 3 3 = 1 := by rw [hB]; rfl
  have h : ∀ i, |(posPart (m.mul A B) - (rotPart A *ᵥ posPart B + posPart A)) i| ≤
      (m.γ • (absM (rotPart A) *ᵥ absV (posPart B) + absV (posPart A))) i := by
    intro i
    obtain ⟨θ, hθ, he⟩ := m.mul_err A B i.castSucc 3
    have e1 : posPart (m.mul A B) i = m.mul A B i.castSucc 3 := rfl
    rw [Pi.sub_apply, e1, he, Fin.sum_univ_castSucc, Pi.add_apply, Pi.smul_apply, Pi.add_apply, Matrix.mulVec, Matrix.mulVec,
      dotProduct, dotProduct]
    have hl : (Fin.last 3 : Fin 4) = 3 := rfl
    rw [hl, hB3, mul_one, smul_eq_mul, mul_add m.γ, Finset.mul_sum]
    have e2 : ∀ S S' x : ℝ, S + x * (1 + θ 3) - (S' + x) = (S - S') + θ 3 * x := fun _ _ _ => by ring
    have e3 : posPart A i = A i.castSucc 3 := rfl
    rw [e3, e2, ← Finset.sum_sub_distrib]
    refine (abs_add_le _ _).trans (add_le_add ?_ ?_)
    · refine (Finset.abs_sum_le_sum_abs _ _).trans (Finset.sum_le_sum fun k _ => ?_)
      have : A i.castSucc k.castSucc * B k.castSucc 3 * (1 + θ k.castSucc) - rotPart A i k * posPart B k =
          θ k.castSucc * (rotPart A i k * posPart B k) := by
        simp only [rotPart, posPart]; ring
      rw [this, abs_mul, abs_mul]
      exact mul_le_mul_of_nonneg_right (hθ _) (by positivity)
    · rw [abs_mul]
      exact mul_le_mul_of_nonneg_right (hθ _) (abs_nonneg _)
  refine (vlen_le_of_abs h).trans ?_
  rw [vlen_smul, abs_of_nonneg m.γ_nonneg]
  refine mul_le_mul_of_nonneg_left ((vlen_add_le _ _).trans ?_) m.γ_nonneg
  rw [vlen_absV]
  refine add_le_add ((vlen_mulVec_le _ _).trans ?_) le_rfl
  rw [fro_absM, vlen_absV]

theorem fro_sub_bound {A R : M3} {g : ℝ} (hR : IsRot R) (h : fro (A - R) ≤ g) : fro A ≤ Real.sqrt 3 + g := by
  have := fro_add_le R (A - R)
  rw [fro_rot hR, add_sub_cancel] at this
  linarith

/-- relative errors of products multiply -/
theorem Spec.Within.mul (m : Machine) {ga gb la lb : ℝ} {A' A B' B : M4} (ha : Within ga la A' A) (hb : Within gb lb B' B) :
    Within ((1 + ga) * (1 + gb) * (1 + 3 * m.γ) - 1) (la + lb) (m.mul A' B') (A * B) := by
  have h0a := ha.g_nonneg; have h0b := hb.g_nonneg; have h1a := ha.l_nonneg; have h1b := hb.l_nonneg
  have hγ := m.γ_nonneg
  have hs := one_le_sqrt3
  have hs3 : Real.sqrt 3 * Real.sqrt 3 = 3 := Real.mul_self_sqrt (by norm_num)
  have hsq := sqrt3_le
  have hRa := ha.rigid.1
  have hRb := hb.rigid.1
  change IsRot (rotPart A) at hRa
  change IsRot (rotPart B) at hRb
  have fa := fro_sub_bound hRa ha.rot
  have fb := fro_sub_bound hRb hb.rot
  have fa' : fro (rotPart A') ≤ Real.sqrt 3 * (1 + ga) := fa.trans (by nlinarith)
  have fb' : fro (rotPart B') ≤ Real.sqrt 3 * (1 + gb) := fb.trans (by nlinarith)
  have va : vlen (posPart A') ≤ (1 + ga) * la := by
    have := vlen_add_le (posPart A) (posPart A' - posPart A)
    rw [add_sub_cancel] at this
    nlinarith [ha.len, ha.pos]
  have vb : vlen (posPart B') ≤ (1 + gb) * lb := by
    have := vlen_add_le (posPart B) (posPart B' - posPart B)
    rw [add_sub_cancel] at this
    nlinarith [hb.len, hb.pos]
  refine ⟨ha.rigid.mul hb.rigid, m.mul_last _ _ ha.affine hb.affine, ?_, ?_, ?_⟩
  · obtain ⟨E, he, hE⟩ := mul_rot_err m A' B' hb.affine
    rw [he, rotPart_mul hb.rigid.2]
    have : rotPart A' * rotPart B' + E - rotPart A * rotPart B =
        ((rotPart A' - rotPart A) * rotPart B + rotPart A * (rotPart B' - rotPart B)) +
          ((rotPart A' - rotPart A) * (rotPart B' - rotPart B) + E) := by
      noncomm_ring
    rw [this]
    have t1 := fro_add_le ((rotPart A' - rotPart A) * rotPart B + rotPart A * (rotPart B' - rotPart B))
          ((rotPart A' - rotPart A) * (rotPart B' - rotPart B) + E)
    have t2 := fro_add_le ((rotPart A' - rotPart A) * rotPart B) (rotPart A * (rotPart B' - rotPart B))
    have t3 := fro_add_le ((rotPart A' - rotPart A) * (rotPart B' - rotPart B)) E
    rw [fro_mul_rot hRb, fro_rot_mul hRa] at t2
    have t4 := fro_mul_le (rotPart A' - rotPart A) (rotPart B' - rotPart B)
    have t5 : fro (rotPart A' - rotPart A) * fro (rotPart B' - rotPart B) ≤ ga * gb :=
      mul_le_mul ha.rot hb.rot (fro_nonneg _) h0a
    have t6 : fro (rotPart A') * fro (rotPart B') ≤ (Real.sqrt 3 * (1 + ga)) * (Real.sqrt 3 * (1 + gb)) :=
      mul_le_mul fa' fb' (fro_nonneg _) (by positivity)
    have t7 : (Real.sqrt 3 * (1 + ga)) * (Real.sqrt 3 * (1 + gb)) = 3 * ((1 + ga) * (1 + gb)) := by
      linear_combination ((1 + ga) * (1 + gb)) * hs3
    have t8 := mul_le_mul_of_nonneg_left (t6.trans t7.le) hγ
    have := ha.rot; have := hb.rot
    nlinarith
  · rw [posPart_mul hb.rigid.2]
    refine (vlen_add_le _ _).trans ?_
    rw [vlen_rot hRa]
    linarith [ha.len, hb.len]
  · obtain ⟨E, he, hE⟩ := mul_pos_err m A' B' hb.affine
    rw [he, posPart_mul hb.rigid.2]
    have : rotPart A' *ᵥ posPart B' + posPart A' + E - (rotPart A *ᵥ posPart B + posPart A) =
        ((rotPart A' - rotPart A) *ᵥ posPart B' + rotPart A *ᵥ (posPart B' - posPart B)) +
          ((posPart A' - posPart A) + E) := by
      rw [Matrix.sub_mulVec, Matrix.mulVec_sub]; abel
    rw [this]
    have t1 := vlen_add_le ((rotPart A' - rotPart A) *ᵥ posPart B' + rotPart A *ᵥ (posPart B' - posPart B))
          ((posPart A' - posPart A) + E)
    have t2 := vlen_add_le ((rotPart A' - rotPart A) *ᵥ posPart B') (rotPart A *ᵥ (posPart B' - posPart B))
    have t3 := vlen_add_le (posPart A' - posPart A) E
    rw [vlen_rot hRa] at t2
    have t4 := vlen_mulVec_le (rotPart A' - rotPart A) (posPart B')
    have t5 : fro (rotPart A' - rotPart A) * vlen (posPart B') ≤ ga * ((1 + gb) * lb) :=
      mul_le_mul ha.rot vb (vlen_nonneg _) h0a
    have t6 : fro (rotPart A') * vlen (posPart B') ≤ (3 * (1 + ga)) * ((1 + gb) * lb) :=
      mul_le_mul (fa'.trans (by nlinarith)) vb (vlen_nonneg _) (by positivity)
    have t7 : vlen (posPart A') ≤ 3 * (1 + ga) * (1 + gb) * la := va.trans (by
      have : 0 ≤ (1 + ga) * la := by positivity
      nlinarith [mul_nonneg this h0b])
    have t8 := mul_le_mul_of_nonneg_left (add_le_add t6 t7) hγ
    have t9 : 0 ≤ gb * la * (1 + ga) := by positivity
    have := ha.pos; have := hb.pos
    nlinarith

theorem Machine.u_nonneg (m : Machine) : 0 ≤ m.u := by
  have := (abs_nonneg _).trans (m.rnd_err 1)
  simpa using this

theorem rnd_near (m : Machine) {x y e M τ : ℝ} (hu : m.u ≤ τ) (h : |x - y| ≤ e) (hM : |y| ≤ M) :
    |m.rnd x - y| ≤ e + τ * (M + e) := by
  have h1 := m.rnd_err x
  have h2 : |x| ≤ M + e := by
    have := abs_add_le (x - y) y
    rw [sub_add_cancel] at this
    linarith
  have h3 : |m.rnd x - y| ≤ |m.rnd x - x| + |x - y| := abs_sub_le _ _ _
  have h4 : m.u * |x| ≤ τ * (M + e) := mul_le_mul hu h2 (abs_nonneg _) (m.u_nonneg.trans hu)
  linarith

theorem mul_near {x y x' y' e e' M M' : ℝ} (h : |x - y| ≤ e) (hM : |y| ≤ M) (h' : |x' - y'| ≤ e') (hM' : |y'| ≤ M') :
    |x * x' - y * y'| ≤ M * e' + M' * e + e * e' := by
  have e1 : x * x' - y * y' = y * (x' - y') + y' * (x - y) + (x - y) * (x' - y') := by ring
  have h0 := (abs_nonneg _).trans h
  have h0' := (abs_nonneg _).trans hM
  have h0'' := (abs_nonneg _).trans hM'
  rw [e1]
  refine (abs_add_le _ _).trans (add_le_add ((abs_add_le _ _).trans (add_le_add ?_ ?_)) ?_) <;> rw [abs_mul]
  · exact mul_le_mul hM h' (abs_nonneg _) h0'
  · exact mul_le_mul hM' h (abs_nonneg _) h0''
  · exact mul_le_mul h h' (abs_nonneg _) h0

theorem add_near {x y x' y' e e' : ℝ} (h : |x - y| ≤ e) (h' : |x' - y'| ≤ e') : |x + x' - (y + y')| ≤ e + e' := by
  rw [add_sub_add_comm]; exact (abs_add_le _ _).trans (add_le_add h h')

theorem sub_near {x y x' y' e e' : ℝ} (h : |x - y| ≤ e) (h' : |x' - y'| ≤ e') : |x - x' - (y - y')| ≤ e + e' := by
  rw [sub_sub_sub_comm]; exact (abs_sub _ _).trans (add_le_add h h')

section
variable (m : Machine) {τ : ℝ} (hu : m.u ≤ τ) (hκ : m.κ ≤ τ) (h0 : 0 ≤ τ) (h1 : τ ≤ 1 / 100)
include hu hκ h0 h1

theorem kk_near {a a' b b' θ : ℝ} (ha : |a' - a| ≤ τ) (hb : |b' - b| ≤ τ) (ha1 : |a| ≤ 1) (hb1 : |b| ≤ 1) :
    |m.rnd (m.rnd (a' * b') * m.rnd (1 - m.cos θ)) - a * b * (1 - Real.cos θ)| ≤ 11.4 * τ ∧
      |a * b * (1 - Real.cos θ)| ≤ 2 := by
  have hc := (m.cos_err θ).trans hκ
  have hcos := Real.abs_cos_le_one θ
  have h1c : |1 - Real.cos θ| ≤ 2 := by
    rw [abs_le] at hcos ⊢; constructor <;> linarith
  have hab : |a * b| ≤ 1 := by
    rw [abs_mul]; exact mul_le_one₀ ha1 (abs_nonneg _) hb1
  have s1 := mul_near ha ha1 hb hb1
  have s2 := rnd_near m hu s1 hab
  have s2' : |m.rnd (a' * b') - a * b| ≤ 3.04 * τ := s2.trans (by nlinarith)
  have s3 : |1 - m.cos θ - (1 - Real.cos θ)| ≤ τ := by
    rw [show 1 - m.cos θ - (1 - Real.cos θ) = -(m.cos θ - Real.cos θ) by ring, abs_neg]; exact hc
  have s4 := rnd_near m hu s3 h1c
  have s4' : |m.rnd (1 - m.cos θ) - (1 - Real.cos θ)| ≤ 3.01 * τ := s4.trans (by nlinarith)
  have s5 := mul_near s2' hab s4' h1c
  have hM : |a * b * (1 - Real.cos θ)| ≤ 2 := by
    rw [abs_mul]
    calc |a * b| * |1 - Real.cos θ| ≤ 1 * 2 := mul_le_mul hab h1c (abs_nonneg _) (by norm_num)
      _ = 2 := by norm_num
  have s5' : |m.rnd (a' * b') * m.rnd (1 - m.cos θ) - a * b * (1 - Real.cos θ)| ≤ 9.2 * τ := s5.trans (by nlinarith)
  have s6 := rnd_near m hu s5' hM
  exact ⟨s6.trans (by nlinarith), hM⟩

theorem ks_near {a a' θ : ℝ} (ha : |a' - a| ≤ τ) (ha1 : |a| ≤ 1) :
    |m.rnd (a' * m.sin θ) - a * Real.sin θ| ≤ 3.04 * τ ∧ |a * Real.sin θ| ≤ 1 := by
  have hs := (m.sin_err θ).trans hκ
  have hsin := Real.abs_sin_le_one θ
  have hM : |a * Real.sin θ| ≤ 1 := by
    rw [abs_mul]; exact mul_le_one₀ ha1 (abs_nonneg _) hsin
  have s1 := mul_near ha ha1 hs hsin
  have s2 := rnd_near m hu s1 hM
  exact ⟨s2.trans (by nlinarith), hM⟩

theorem axisAngle_near {a a' : V3} (hun : IsUnitV a) (ha : ∀ i, |a' i - a i| ≤ τ) (θ : ℝ) (i j : Fin 3) :
    |axisAndAngle33Fl m a' θ i j - rotAbout a θ i j| ≤ 18 * τ := by
  have hle : ∀ i, |a i| ≤ 1 := fun i => by
    rw [← sq_le_one_iff_abs_le_one]
    unfold IsUnitV at hun
    have := sq_nonneg (a 0); have := sq_nonneg (a 1); have := sq_nonneg (a 2)
    fin_cases i
    · show a 0 ^ 2 ≤ 1; linarith
    · show a 1 ^ 2 ≤ 1; linarith
    · show a 2 ^ 2 ≤ 1; linarith
  have hc := (m.cos_err θ).trans hκ
  have hcos := Real.abs_cos_le_one θ
  have kk : ∀ i j, _ := fun i j => kk_near m hu hκ h0 h1 (θ := θ) (ha i) (ha j) (hle i) (hle j)
  have ks : ∀ i, _ := fun i => ks_near m hu hκ h0 h1 (θ := θ) (ha i) (hle i)
  have plus : ∀ {x y x' y' : ℝ}, (|x - y| ≤ 11.4 * τ ∧ |y| ≤ 2) → (|x' - y'| ≤ 3.04 * τ ∧ |y'| ≤ 1) →
      |m.rnd (x + x') - (y + y')| ≤ 18 * τ := fun hx hx' =>
    (rnd_near m hu (add_near hx.1 hx'.1) ((abs_add_le _ _).trans (add_le_add hx.2 hx'.2))).trans (by nlinarith)
  have minus : ∀ {x y x' y' : ℝ}, (|x - y| ≤ 11.4 * τ ∧ |y| ≤ 2) → (|x' - y'| ≤ 3.04 * τ ∧ |y'| ≤ 1) →
      |m.rnd (x - x') - (y - y')| ≤ 18 * τ := fun hx hx' =>
    (rnd_near m hu (sub_near hx.1 hx'.1) ((abs_sub _ _).trans (add_le_add hx.2 hx'.2))).trans (by nlinarith)
  have diag : ∀ {x y : ℝ}, (|x - y| ≤ 11.4 * τ ∧ |y| ≤ 2) →
      |m.rnd (m.cos θ + x) - (Real.cos θ + y)| ≤ 18 * τ := fun hx =>
    (rnd_near m hu (add_near hc hx.1) ((abs_add_le _ _).trans (add_le_add hcos hx.2))).trans (by nlinarith)
  rw [← axisAndAngleToMatrix33_eq_rotAbout]
  fin_cases i <;> fin_cases j
  · exact diag (kk 0 0)
  · exact minus (kk 0 1) (ks 2)
  · exact plus (kk 0 2) (ks 1)
  · exact plus (kk 1 0) (ks 2)
  · exact diag (kk 1 1)
  · exact minus (kk 1 2) (ks 0)
  · exact minus (kk 2 0) (ks 1)
  · exact plus (kk 2 1) (ks 0)
  · exact diag (kk 2 2)

end

theorem one_add_prod {x y X Y : ℝ} (hx : |x - 1| ≤ X - 1) (hy : |y - 1| ≤ Y - 1) : |x * y - 1| ≤ X * Y - 1 := by
  have h := mul_near hx (by simp : |(1 : ℝ)| ≤ 1) hy (by simp : |(1 : ℝ)| ≤ 1)
  rw [mul_one] at h
  linarith

theorem rnd_factor {rnd : ℝ → ℝ} {u : ℝ} (hu : 0 ≤ u) (h : ∀ x, |rnd x - x| ≤ u * |x|) (x : ℝ) :
    ∃ ε, |ε - 1| ≤ (1 + u) - 1 ∧ rnd x = x * ε := by
  rcases eq_or_ne x 0 with rfl | hx
  · refine ⟨1, by simpa using hu, ?_⟩
    have := h 0
    simpa using this
  · refine ⟨rnd x / x, ?_, by field_simp⟩
    have h2 : rnd x / x - 1 = (rnd x - x) / x := by field_simp
    rw [h2, abs_div, div_le_iff₀ (abs_pos.2 hx)]
    simpa using h x

/-- an arithmetic given by its rounding function: operations are exact and then rounded, also `cos` and `sin`; the entries
of a matrix product are summed from left to right -/
noncomputable def Machine.ofRounding (rnd : ℝ → ℝ) (u : ℝ) (hu : 0 ≤ u) (h : ∀ x, |rnd x - x| ≤ u * |x|) (h1 : rnd 1 = 1) :
    Machine where
  u := u
  γ := (1 + u) ^ 4 - 1
  κ := u
  γ_nonneg := by
    have := one_le_pow₀ (n := 4) (show (1 : ℝ) ≤ 1 + u by linarith)
    linarith
  rnd := rnd
  rnd_err := h
  cos x := rnd (Real.cos x)
  cos_err x := (h _).trans (by nlinarith [Real.abs_cos_le_one x])
  sin x := rnd (Real.sin x)
  sin_err x := (h _).trans (by nlinarith [Real.abs_sin_le_one x])
  mul A B := fun i j => rnd (rnd (rnd (rnd (A i 0 * B 0 j) + rnd (A i 1 * B 1 j)) + rnd (A i 2 * B 2 j)) + rnd (A i 3 * B 3 j))
  mul_err A B i j := by
    obtain ⟨p0, hp0, e0⟩ := rnd_factor hu h (A i 0 * B 0 j)
    obtain ⟨p1, hp1, e1⟩ := rnd_factor hu h (A i 1 * B 1 j)
    obtain ⟨p2, hp2, e2⟩ := rnd_factor hu h (A i 2 * B 2 j)
    obtain ⟨p3, hp3, e3⟩ := rnd_factor hu h (A i 3 * B 3 j)
    rw [e0, e1, e2, e3]
    obtain ⟨s1, hs1, f1⟩ := rnd_factor hu h (A i 0 * B 0 j * p0 + A i 1 * B 1 j * p1)
    rw [f1]
    obtain ⟨s2, hs2, f2⟩ := rnd_factor hu h ((A i 0 * B 0 j * p0 + A i 1 * B 1 j * p1) * s1 + A i 2 * B 2 j * p2)
    rw [f2]
    obtain ⟨s3, hs3, f3⟩ := rnd_factor hu h
      (((A i 0 * B 0 j * p0 + A i 1 * B 1 j * p1) * s1 + A i 2 * B 2 j * p2) * s2 + A i 3 * B 3 j * p3)
    rw [f3]
    have one : |(1 : ℝ) - 1| ≤ (1 + u) - 1 := by simpa using hu
    refine ⟨![p0 * s1 * s2 * s3 - 1, p1 * s1 * s2 * s3 - 1, p2 * s2 * s3 * 1 - 1, p3 * s3 * 1 * 1 - 1], ?_, ?_⟩
    · have key : ∀ {a b c d : ℝ}, |a - 1| ≤ (1 + u) - 1 → |b - 1| ≤ (1 + u) - 1 → |c - 1| ≤ (1 + u) - 1 →
          |d - 1| ≤ (1 + u) - 1 → |a * b * c * d - 1| ≤ (1 + u) ^ 4 - 1 := fun ha hb hc hd =>
        (one_add_prod (one_add_prod (one_add_prod ha hb) hc) hd).trans (by ring_nf; rfl)
      intro k
      fin_cases k
      · exact key hp0 hs1 hs2 hs3
      · exact key hp1 hs1 hs2 hs3
      · exact key hp2 hs2 hs3 one
      · exact key hp3 hs3 one one
    · simp [Fin.sum_univ_four]
      ring
  mul_last A B hA hB := by
    have h0 : rnd 0 = 0 := by simpa using h 0
    have a0 : A 3 0 = 0 := by rw [hA]; rfl
    have a1 : A 3 1 = 0 := by rw [hA]; rfl
    have a2 : A 3 2 = 0 := by rw [hA]; rfl
    have a3 : A 3 3 = 1 := by rw [hA]; rfl
    funext j
    rw [a0, a1, a2, a3]
    simp only [zero_mul, one_mul, h0, add_zero, zero_add]
    rw [hB]
    fin_cases j <;> simp [h0, h1]
  dot a b := rnd (rnd (rnd (a 0 * b 0) + rnd (a 1 * b 1)) + rnd (a 2 * b 2))
  dot_err a b := by
    obtain ⟨p0, hp0, e0⟩ := rnd_factor hu h (a 0 * b 0)
    obtain ⟨p1, hp1, e1⟩ := rnd_factor hu h (a 1 * b 1)
    obtain ⟨p2, hp2, e2⟩ := rnd_factor hu h (a 2 * b 2)
    rw [e0, e1, e2]
    obtain ⟨s1, hs1, f1⟩ := rnd_factor hu h (a 0 * b 0 * p0 + a 1 * b 1 * p1)
    rw [f1]
    obtain ⟨s2, hs2, f2⟩ := rnd_factor hu h ((a 0 * b 0 * p0 + a 1 * b 1 * p1) * s1 + a 2 * b 2 * p2)
    rw [f2]
    have one : |(1 : ℝ) - 1| ≤ (1 + u) - 1 := by simpa using hu
    refine ⟨![p0 * s1 * s2 * 1 - 1, p1 * s1 * s2 * 1 - 1, p2 * s2 * 1 * 1 - 1], ?_, ?_⟩
    · have key : ∀ {a b c d : ℝ}, |a - 1| ≤ (1 + u) - 1 → |b - 1| ≤ (1 + u) - 1 → |c - 1| ≤ (1 + u) - 1 →
          |d - 1| ≤ (1 + u) - 1 → |a * b * c * d - 1| ≤ (1 + u) ^ 4 - 1 := fun ha hb hc hd =>
        (one_add_prod (one_add_prod (one_add_prod ha hb) hc) hd).trans (by ring_nf; rfl)
      intro k
      fin_cases k
      · exact key hp0 hs1 hs2 one
      · exact key hp1 hs1 hs2 one
      · exact key hp2 hs2 one one
    · simp [Fin.sum_univ_three]
      ring
  det2 a b c d := rnd (rnd (a * b) - rnd (c * d))
  det2_err a b c d := by
    obtain ⟨p0, hp0, e0⟩ := rnd_factor hu h (a * b)
    obtain ⟨p1, hp1, e1⟩ := rnd_factor hu h (c * d)
    rw [e0, e1]
    obtain ⟨s1, hs1, f1⟩ := rnd_factor hu h (a * b * p0 - c * d * p1)
    rw [f1]
    have one : |(1 : ℝ) - 1| ≤ (1 + u) - 1 := by simpa using hu
    have key : ∀ {a b c d : ℝ}, |a - 1| ≤ (1 + u) - 1 → |b - 1| ≤ (1 + u) - 1 → |c - 1| ≤ (1 + u) - 1 →
        |d - 1| ≤ (1 + u) - 1 → |a * b * c * d - 1| ≤ (1 + u) ^ 4 - 1 := fun ha hb hc hd =>
      (one_add_prod (one_add_prod (one_add_prod ha hb) hc) hd).trans (by ring_nf; rfl)
    exact ⟨p0 * s1 * 1 * 1 - 1, p1 * s1 * 1 * 1 - 1, key hp0 hs1 one one, key hp1 hs1 one one, by ring⟩

/-- rounding to `p` binary digits (to nearest; the exponent is not bounded) -/
noncomputable def roundTo (p : ℕ) (x : ℝ) : ℝ :=
  (round (x * 2 ^ ((p : ℤ) - 1 - Int.log 2 |x|)) : ℝ) * 2 ^ (Int.log 2 |x| - ((p : ℤ) - 1))

theorem roundTo_err (p : ℕ) (x : ℝ) : |roundTo p x - x| ≤ (2 : ℝ) ^ (-(p : ℤ)) * |x| := by
  rcases eq_or_ne x 0 with rfl | hx
  · simp [roundTo]
  set e := Int.log 2 |x| with he
  have h2 : (0 : ℝ) < 2 ^ (e - ((p : ℤ) - 1)) := by positivity
  have hxx : x = x * 2 ^ ((p : ℤ) - 1 - e) * 2 ^ (e - ((p : ℤ) - 1)) := by
    rw [mul_assoc, ← zpow_add₀ (by norm_num)]
    simp
  have hr := abs_sub_round (x * 2 ^ ((p : ℤ) - 1 - e))
  have hle : (2 : ℝ) ^ e ≤ |x| := by
    have := Int.zpow_log_le_self (b := 2) (R := ℝ) (by norm_num) (abs_pos.2 hx)
    simpa using this
  have : roundTo p x - x = ((round (x * 2 ^ ((p : ℤ) - 1 - e)) : ℝ) - x * 2 ^ ((p : ℤ) - 1 - e)) *
      2 ^ (e - ((p : ℤ) - 1)) := by
    rw [sub_mul, ← hxx, roundTo]
  rw [this, abs_mul, abs_of_pos h2, abs_sub_comm]
  refine (mul_le_mul_of_nonneg_right hr h2.le).trans ?_
  have e1 : (1 / 2 : ℝ) * 2 ^ (e - ((p : ℤ) - 1)) = 2 ^ (-(p : ℤ)) * 2 ^ e := by
    rw [show (1 / 2 : ℝ) = 2 ^ (-1 : ℤ) by norm_num, ← zpow_add₀ (by norm_num), ← zpow_add₀ (by norm_num)]
    congr 1; ring
  rw [e1]
  exact mul_le_mul_of_nonneg_left hle (by positivity)

theorem roundTo_one {p : ℕ} (hp : 1 ≤ p) : roundTo p 1 = 1 := by
  obtain ⟨q, rfl⟩ : ∃ q, p = q + 1 := ⟨p - 1, by omega⟩
  have e : (1 : ℝ) * 2 ^ ((((q + 1 : ℕ) : ℤ) - 1 - Int.log 2 |(1 : ℝ)|)) = ((2 ^ q : ℤ) : ℝ) := by
    simp
  rw [roundTo, e, round_intCast]
  simp

/-- arithmetic with `p` binary digits: 24 for `torch.float32`, 53 for `torch.float64` -/
noncomputable def binary (p : ℕ) (hp : 1 ≤ p) : Machine :=
  .ofRounding (roundTo p) (2 ^ (-(p : ℤ))) (by positivity) (roundTo_err p) (roundTo_one hp)

end PK
