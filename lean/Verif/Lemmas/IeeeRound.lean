import Verif.Lemmas.IeeeFk

/-!
# Rounding errors and finiteness in IEEE arithmetic
-/

namespace PK
open Spec Matrix

theorem rnd_nearI (m : Ieee) {x y e M τ : ℝ} (hu : m.u + m.η ≤ τ) (h : |x - y| ≤ e) (hM : |y| ≤ M) (h1 : 1 ≤ M)
    (hb : M + e ≤ m.big) : ∃ z, m.rnd x = .fin z ∧ |z - y| ≤ e + τ * (M + e) := by
  have h0 := (abs_nonneg _).trans h
  have h2 : |x| ≤ M + e := by
    have := abs_add_le (x - y) y
    rw [sub_add_cancel] at this
    linarith
  obtain ⟨z, hz, hz'⟩ := m.rnd_ok x (h2.trans hb)
  refine ⟨z, hz, ?_⟩
  have h3 : |z - y| ≤ |z - x| + |x - y| := abs_sub_le _ _ _
  have h4 : m.u * |x| ≤ m.u * (M + e) := mul_le_mul_of_nonneg_left h2 m.u_nonneg
  have h5 : m.η ≤ m.η * (M + e) := le_mul_of_one_le_right m.η_nonneg (by linarith)
  have h6 : (m.u + m.η) * (M + e) ≤ τ * (M + e) := mul_le_mul_of_nonneg_right hu (by linarith)
  nlinarith

section
variable (m : Ieee) {τ : ℝ} (hu : m.u + m.η ≤ τ) (hκ : m.κ ≤ τ) (h1 : τ ≤ 1 / 100) (hb : 4 ≤ m.big)
include hu hκ h1 hb

theorem kk_nearI {a a' b b' θ : ℝ} (ha : |a' - a| ≤ τ) (hb' : |b' - b| ≤ τ) (ha1 : |a| ≤ 1) (hb1 : |b| ≤ 1) :
    ∃ x, m.times (m.times (.fin a') (.fin b')) (m.sub (.fin 1) (m.cos (.fin θ))) = .fin x ∧
      |x - a * b * (1 - Real.cos θ)| ≤ 11.4 * τ ∧ |a * b * (1 - Real.cos θ)| ≤ 2 := by
  have h0 : 0 ≤ τ := (add_nonneg m.u_nonneg m.η_nonneg).trans hu
  obtain ⟨c, ec, hc⟩ := m.cos_ok θ
  have hc := hc.trans hκ
  have hcos := Real.abs_cos_le_one θ
  have h1c : |1 - Real.cos θ| ≤ 2 := by
    rw [abs_le] at hcos ⊢; constructor <;> linarith
  have hab : |a * b| ≤ 1 := by
    rw [abs_mul]; exact mul_le_one₀ ha1 (abs_nonneg _) hb1
  have s1 := mul_near ha ha1 hb' hb1
  obtain ⟨x1, e1, s2⟩ := rnd_nearI m hu s1 hab le_rfl (by nlinarith)
  have s2' : |x1 - a * b| ≤ 3.04 * τ := s2.trans (by nlinarith)
  have s3 : |1 + -c - (1 - Real.cos θ)| ≤ τ := by
    rw [show 1 + -c - (1 - Real.cos θ) = -(c - Real.cos θ) by ring, abs_neg]; exact hc
  obtain ⟨x2, e2, s4⟩ := rnd_nearI m hu s3 h1c (by norm_num) (by linarith)
  have s4' : |x2 - (1 - Real.cos θ)| ≤ 3.01 * τ := s4.trans (by nlinarith)
  have s5 := mul_near s2' hab s4' h1c
  have hM : |a * b * (1 - Real.cos θ)| ≤ 2 := by
    rw [abs_mul]
    calc |a * b| * |1 - Real.cos θ| ≤ 1 * 2 := mul_le_mul hab h1c (abs_nonneg _) (by norm_num)
      _ = 2 := by norm_num
  have s5' : |x1 * x2 - a * b * (1 - Real.cos θ)| ≤ 9.2 * τ := s5.trans (by nlinarith)
  obtain ⟨x3, e3, s6⟩ := rnd_nearI m hu s5' hM (by norm_num) (by linarith)
  refine ⟨x3, ?_, s6.trans (by nlinarith), hM⟩
  simp only [Ieee.times, Ieee.sub, ec, AD.mul, Fl.sub, Fl.neg, Fl.add, Ieee.res, e1, e2, e3]

theorem ks_nearI {a a' θ : ℝ} (ha : |a' - a| ≤ τ) (ha1 : |a| ≤ 1) :
    ∃ x, m.times (.fin a') (m.sin (.fin θ)) = .fin x ∧ |x - a * Real.sin θ| ≤ 3.04 * τ ∧ |a * Real.sin θ| ≤ 1 := by
  have h0 : 0 ≤ τ := (add_nonneg m.u_nonneg m.η_nonneg).trans hu
  obtain ⟨s, es, hs⟩ := m.sin_ok θ
  have hs := hs.trans hκ
  have hsin := Real.abs_sin_le_one θ
  have hM : |a * Real.sin θ| ≤ 1 := by
    rw [abs_mul]; exact mul_le_one₀ ha1 (abs_nonneg _) hsin
  have s1 := mul_near ha ha1 hs hsin
  obtain ⟨x, e, s2⟩ := rnd_nearI m hu s1 hM le_rfl (by nlinarith)
  refine ⟨x, ?_, s2.trans (by nlinarith), hM⟩
  simp only [Ieee.times, es, AD.mul, Ieee.res, e]

/-- a joint's rotation is finite and close to the exact one -/
theorem axisAngle_nearI {a a' : V3} (hun : IsUnitV a) (ha : ∀ i, |a' i - a i| ≤ τ) (θ : ℝ) :
    ∃ R : M3, axisAndAngle44I m a' (.fin θ) = finM (mkHom R 0) ∧ ∀ i j, |R i j - rotAbout a θ i j| ≤ 18 * τ := by
  have h0 : 0 ≤ τ := (add_nonneg m.u_nonneg m.η_nonneg).trans hu
  have hle : ∀ i, |a i| ≤ 1 := fun i => by
    rw [← sq_le_one_iff_abs_le_one]
    unfold IsUnitV at hun
    have := sq_nonneg (a 0); have := sq_nonneg (a 1); have := sq_nonneg (a 2)
    fin_cases i
    · show a 0 ^ 2 ≤ 1; linarith
    · show a 1 ^ 2 ≤ 1; linarith
    · show a 2 ^ 2 ≤ 1; linarith
  obtain ⟨c, ec, hc⟩ := m.cos_ok θ
  have hc := hc.trans hκ
  have hcos := Real.abs_cos_le_one θ
  have kk : ∀ i j, _ := fun i j => kk_nearI m hu hκ h1 hb (θ := θ) (ha i) (ha j) (hle i) (hle j)
  have ks : ∀ i, _ := fun i => ks_nearI m hu hκ h1 hb (θ := θ) (ha i) (hle i)
  have plus : ∀ {v v' : Fl} {y y' : ℝ}, (∃ x, v = .fin x ∧ |x - y| ≤ 11.4 * τ ∧ |y| ≤ 2) →
      (∃ x', v' = .fin x' ∧ |x' - y'| ≤ 3.04 * τ ∧ |y'| ≤ 1) →
      ∃ z, m.add v v' = .fin z ∧ |z - (y + y')| ≤ 18 * τ := by
    rintro v v' y y' ⟨x, rfl, hx, hy⟩ ⟨x', rfl, hx', hy'⟩
    obtain ⟨z, hz, hz'⟩ := rnd_nearI m hu (add_near hx hx') ((abs_add_le _ _).trans (add_le_add hy hy')) (by norm_num)
      (by linarith)
    exact ⟨z, hz, hz'.trans (by nlinarith)⟩
  have minus : ∀ {v v' : Fl} {y y' : ℝ}, (∃ x, v = .fin x ∧ |x - y| ≤ 11.4 * τ ∧ |y| ≤ 2) →
      (∃ x', v' = .fin x' ∧ |x' - y'| ≤ 3.04 * τ ∧ |y'| ≤ 1) →
      ∃ z, m.sub v v' = .fin z ∧ |z - (y - y')| ≤ 18 * τ := by
    rintro v v' y y' ⟨x, rfl, hx, hy⟩ ⟨x', rfl, hx', hy'⟩
    obtain ⟨z, hz, hz'⟩ := rnd_nearI m hu (sub_near hx hx') ((abs_sub _ _).trans (add_le_add hy hy')) (by norm_num)
      (by linarith)
    refine ⟨z, ?_, hz'.trans (by nlinarith)⟩
    simp only [Ieee.sub, Fl.sub, Fl.neg, Fl.add, Ieee.res, ← sub_eq_add_neg, hz]
  have diag : ∀ {v : Fl} {y : ℝ}, (∃ x, v = .fin x ∧ |x - y| ≤ 11.4 * τ ∧ |y| ≤ 2) →
      ∃ z, m.add (m.cos (.fin θ)) v = .fin z ∧ |z - (Real.cos θ + y)| ≤ 18 * τ := by
    rintro v y ⟨x, rfl, hx, hy⟩
    obtain ⟨z, hz, hz'⟩ := rnd_nearI m hu (add_near hc hx) ((abs_add_le _ _).trans (add_le_add hcos hy)) (by norm_num)
      (by linarith)
    refine ⟨z, ?_, hz'.trans (by nlinarith)⟩
    simp only [Ieee.add, ec, Fl.add, Ieee.res, hz]
  rw [← axisAndAngleToMatrix33_eq_rotAbout]
  obtain ⟨z00, e00, b00⟩ := diag (kk 0 0)
  obtain ⟨z01, e01, b01⟩ := minus (kk 0 1) (ks 2)
  obtain ⟨z02, e02, b02⟩ := plus (kk 0 2) (ks 1)
  obtain ⟨z10, e10, b10⟩ := plus (kk 1 0) (ks 2)
  obtain ⟨z11, e11, b11⟩ := diag (kk 1 1)
  obtain ⟨z12, e12, b12⟩ := minus (kk 1 2) (ks 0)
  obtain ⟨z20, e20, b20⟩ := minus (kk 2 0) (ks 1)
  obtain ⟨z21, e21, b21⟩ := plus (kk 2 1) (ks 0)
  obtain ⟨z22, e22, b22⟩ := diag (kk 2 2)
  refine ⟨!![z00, z01, z02; z10, z11, z12; z20, z21, z22], ?_, ?_⟩
  · simp only [axisAndAngle44I, e00, e01, e02, e10, e11, e12, e20, e21, e22]
    funext i j
    rw [finM, ← hom_eq_mkHom]
    fin_cases i <;> fin_cases j <;> rfl
  · intro i j
    fin_cases i <;> fin_cases j
    · exact b00
    · exact b01
    · exact b02
    · exact b10
    · exact b11
    · exact b12
    · exact b20
    · exact b21
    · exact b22

end

/-! ## Products -/

theorem abs_entry_le_fro (A : M3) (i j : Fin 3) : |A i j| ≤ fro A := by
  refine Real.le_sqrt_of_sq_le ?_
  rw [sq_abs]
  refine (Finset.single_le_sum (f := fun j => A i j ^ 2) (fun _ _ => sq_nonneg _) (Finset.mem_univ j)).trans ?_
  exact Finset.single_le_sum (f := fun i => ∑ j, A i j ^ 2) (fun _ _ => Finset.sum_nonneg fun _ _ => sq_nonneg _)
    (Finset.mem_univ i)

theorem abs_entry_le_vlen (v : V3) (i : Fin 3) : |v i| ≤ vlen v := by
  rw [vlen_sq_sum]
  refine Real.le_sqrt_of_sq_le ?_
  rw [sq_abs]
  exact Finset.single_le_sum (f := fun j => v j ^ 2) (fun _ _ => sq_nonneg _) (Finset.mem_univ i)

theorem mul_rot_errI (m : Ieee) {A B : M4} (hB : IsAffine B) (hb : fro (rotPart A) * fro (rotPart B) ≤ m.big) :
    ∃ P : M3, (∀ i j : Fin 3, m.mul (finM A) (finM B) i.castSucc j.castSucc = .fin (P i j)) ∧
      fro (P - rotPart A * rotPart B) ≤ m.γ * (fro (rotPart A) * fro (rotPart B)) + 3 * m.ζ := by
  have hB3 : ∀ j : Fin 3, B 3 j.castSucc = 0 := fun j => by rw [hB]; fin_cases j <;> rfl
  have hl : (Fin.last 3 : Fin 4) = 3 := rfl
  have hsum : ∀ i j : Fin 3, ∑ k, A i.castSucc k * B k j.castSucc = (rotPart A * rotPart B) i j := fun i j => by
    rw [Fin.sum_univ_castSucc, hl, hB3 j, mul_zero, add_zero, Matrix.mul_apply]; rfl
  have habs : ∀ i j : Fin 3, ∑ k, |A i.castSucc k * B k j.castSucc| = (absM (rotPart A) * absM (rotPart B)) i j := fun i j => by
    rw [Fin.sum_univ_castSucc, hl, hB3 j, mul_zero, abs_zero, add_zero, Matrix.mul_apply]
    exact Finset.sum_congr rfl fun k _ => abs_mul _ _
  have hle : fro (absM (rotPart A) * absM (rotPart B)) ≤ fro (rotPart A) * fro (rotPart B) := by
    refine (fro_mul_le _ _).trans (le_of_eq ?_)
    rw [fro_absM, fro_absM]
  have hok : ∀ i j : Fin 3, ∃ z, m.mul (finM A) (finM B) i.castSucc j.castSucc = .fin z ∧
      |z - (rotPart A * rotPart B) i j| ≤ m.γ * (absM (rotPart A) * absM (rotPart B)) i j + m.ζ := fun i j => by
    obtain ⟨z, h1, h2⟩ := m.mul_ok A B i.castSucc j.castSucc (by
      rw [habs]
      exact (le_abs_self _).trans ((abs_entry_le_fro _ i j).trans (hle.trans hb)))
    rw [hsum, habs] at h2
    exact ⟨z, h1, h2⟩
  obtain ⟨P, h1⟩ : ∃ P : M3, ∀ i j : Fin 3, m.mul (finM A) (finM B) i.castSucc j.castSucc = .fin (P i j) ∧
      |P i j - (rotPart A * rotPart B) i j| ≤ m.γ * (absM (rotPart A) * absM (rotPart B)) i j + m.ζ :=
    ⟨fun i j => (hok i j).choose, fun i j => (hok i j).choose_spec⟩
  refine ⟨P, fun i j => (h1 i j).1, ?_⟩
  have h3 : fro (P - rotPart A * rotPart B) ≤
      fro (m.γ • (absM (rotPart A) * absM (rotPart B)) + Matrix.of fun _ _ => m.ζ) := fro_le_of_abs fun i j => (h1 i j).2
  refine h3.trans ((fro_add_le _ _).trans (add_le_add ?_ ?_))
  · rw [fro_smul, abs_of_nonneg m.γ_nonneg]
    exact mul_le_mul_of_nonneg_left hle m.γ_nonneg
  · exact fro_le_of_entries m.ζ_nonneg fun i j => (abs_of_nonneg m.ζ_nonneg).le

theorem mul_pos_errI (m : Ieee) {A B : M4} (hB : IsAffine B)
    (hb : fro (rotPart A) * vlen (posPart B) + vlen (posPart A) ≤ m.big) :
    ∃ P : V3, (∀ i : Fin 3, m.mul (finM A) (finM B) i.castSucc 3 = .fin (P i)) ∧
      vlen (P - (rotPart A *ᵥ posPart B + posPart A)) ≤
        m.γ * (fro (rotPart A) * vlen (posPart B) + vlen (posPart A)) + 2 * m.ζ := by
  have hB3 : B 3 3 = 1 := by rw [hB]; rfl
  have hl : (Fin.last 3 : Fin 4) = 3 := rfl
  have hsum : ∀ i : Fin 3, ∑ k, A i.castSucc k * B k 3 = (rotPart A *ᵥ posPart B + posPart A) i := fun i => by
    rw [Fin.sum_univ_castSucc, hl, hB3, mul_one]; rfl
  have habs : ∀ i : Fin 3, ∑ k, |A i.castSucc k * B k 3| = (absM (rotPart A) *ᵥ absV (posPart B) + absV (posPart A)) i := fun i => by
    rw [Fin.sum_univ_castSucc, hl, hB3, mul_one]
    show _ + |A i.castSucc 3| = ∑ k : Fin 3, |A i.castSucc k.castSucc| * |B k.castSucc 3| + |A i.castSucc 3|
    congr 1
    exact Finset.sum_congr rfl fun k _ => abs_mul _ _
  have hle : vlen (absM (rotPart A) *ᵥ absV (posPart B) + absV (posPart A)) ≤
      fro (rotPart A) * vlen (posPart B) + vlen (posPart A) := by
    refine (vlen_add_le _ _).trans (add_le_add ((vlen_mulVec_le _ _).trans (le_of_eq ?_)) (le_of_eq (vlen_absV _)))
    rw [fro_absM, vlen_absV]
  have hok : ∀ i : Fin 3, ∃ z, m.mul (finM A) (finM B) i.castSucc 3 = .fin z ∧
      |z - (rotPart A *ᵥ posPart B + posPart A) i| ≤
        m.γ * (absM (rotPart A) *ᵥ absV (posPart B) + absV (posPart A)) i + m.ζ := fun i => by
    obtain ⟨z, h1, h2⟩ := m.mul_ok A B i.castSucc 3 (by
      rw [habs]
      exact (le_abs_self _).trans ((abs_entry_le_vlen _ i).trans (hle.trans hb)))
    rw [hsum, habs] at h2
    exact ⟨z, h1, h2⟩
  obtain ⟨P, h1⟩ : ∃ P : V3, ∀ i : Fin 3, m.mul (finM A) (finM B) i.castSucc 3 = .fin (P i) ∧
      |P i - (rotPart A *ᵥ posPart B + posPart A) i| ≤
        m.γ * (absM (rotPart A) *ᵥ absV (posPart B) + absV (posPart A)) i + m.ζ :=
    ⟨fun i => (hok i).choose, fun i => (hok i).choose_spec⟩
  refine ⟨P, fun i => (h1 i).1, ?_⟩
  have h3 : vlen (P - (rotPart A *ᵥ posPart B + posPart A)) ≤
      vlen (m.γ • (absM (rotPart A) *ᵥ absV (posPart B) + absV (posPart A)) + (fun _ => m.ζ : V3)) := vlen_le_of_abs fun i => (h1 i).2
  refine h3.trans ((vlen_add_le _ _).trans (add_le_add ?_ ?_))
  · rw [vlen_smul, abs_of_nonneg m.γ_nonneg]
    exact mul_le_mul_of_nonneg_left hle m.γ_nonneg
  · exact vlen_le_of_entries m.ζ_nonneg fun i => by rw [abs_of_nonneg m.ζ_nonneg]

theorem Spec.WithinI.mono {g g' l l' : ℝ} {X' : FM4} {X : M4} (h : WithinI g l X' X) (hg : g ≤ g') (hl : l ≤ l') :
    WithinI g' l' X' X := by
  obtain ⟨Y, h1, h2⟩ := h
  exact ⟨Y, h1, h2.mono hg hl⟩

/-- relative errors of products multiply, and nothing overflows -/
theorem Spec.WithinI.mul (m : Ieee) {ga gb la lb ε ℓ : ℝ} {A' B' : FM4} {A B : M4} (ha : WithinI ga la A' A)
    (hb : WithinI gb lb B' B) (hℓ : 0 < ℓ) (hℓ1 : ℓ ≤ 1) (hε : m.γ + m.ζ / ℓ ≤ ε) (hl : ℓ ≤ la + lb)
    (hbig : 3 * ((1 + ga) * (1 + gb)) * (1 + la + lb) ≤ m.big) :
    WithinI ((1 + ga) * (1 + gb) * (1 + 3 * ε) - 1) (la + lb) (m.mul A' B') (A * B) := by
  obtain ⟨Y, hY, ha⟩ := ha
  obtain ⟨Z, hZ, hb⟩ := hb
  have eA : A' = finM Y := by funext i j; exact hY i j
  have eB : B' = finM Z := by funext i j; exact hZ i j
  subst eA eB
  have h0a := ha.g_nonneg; have h0b := hb.g_nonneg; have h1a := ha.l_nonneg; have h1b := hb.l_nonneg
  have hγ := m.γ_nonneg
  have hζ := m.ζ_nonneg
  have hζℓ : m.ζ ≤ m.ζ / ℓ := by
    rw [le_div_iff₀ hℓ]; nlinarith
  have hζ' : m.ζ = m.ζ / ℓ * ℓ := by field_simp
  have hs := one_le_sqrt3
  have hs3 : Real.sqrt 3 * Real.sqrt 3 = 3 := Real.mul_self_sqrt (by norm_num)
  have hsq := sqrt3_le
  have hRa : IsRot (rotPart A) := ha.rigid.1
  have hRb : IsRot (rotPart B) := hb.rigid.1
  have fa := fro_sub_bound hRa ha.rot
  have fb := fro_sub_bound hRb hb.rot
  have fa' : fro (rotPart Y) ≤ Real.sqrt 3 * (1 + ga) := fa.trans (by nlinarith)
  have fb' : fro (rotPart Z) ≤ Real.sqrt 3 * (1 + gb) := fb.trans (by nlinarith)
  have va : vlen (posPart Y) ≤ (1 + ga) * la := by
    have := vlen_add_le (posPart A) (posPart Y - posPart A)
    rw [add_sub_cancel] at this
    nlinarith [ha.len, ha.pos]
  have vb : vlen (posPart Z) ≤ (1 + gb) * lb := by
    have := vlen_add_le (posPart B) (posPart Z - posPart B)
    rw [add_sub_cancel] at this
    nlinarith [hb.len, hb.pos]
  obtain ⟨G, hG⟩ : ∃ G, G = (1 + ga) * (1 + gb) := ⟨_, rfl⟩
  have hG1 : 1 ≤ G := by rw [hG]; nlinarith [mul_nonneg h0a h0b]
  have t6 : fro (rotPart Y) * fro (rotPart Z) ≤ 3 * G := by
    have h : fro (rotPart Y) * fro (rotPart Z) ≤ (Real.sqrt 3 * (1 + ga)) * (Real.sqrt 3 * (1 + gb)) :=
      mul_le_mul fa' fb' (fro_nonneg _) (by positivity)
    have : (Real.sqrt 3 * (1 + ga)) * (Real.sqrt 3 * (1 + gb)) = 3 * ((1 + ga) * (1 + gb)) := by
      linear_combination ((1 + ga) * (1 + gb)) * hs3
    rw [hG]; linarith
  have t7 : fro (rotPart Y) * vlen (posPart Z) + vlen (posPart Y) ≤ 3 * G * (la + lb) := by
    have h1 : fro (rotPart Y) * vlen (posPart Z) ≤ (3 * (1 + ga)) * ((1 + gb) * lb) :=
      mul_le_mul (fa'.trans (by nlinarith)) vb (vlen_nonneg _) (by positivity)
    have h2 : vlen (posPart Y) ≤ 3 * ((1 + ga) * (1 + gb)) * la := va.trans (by
      have : 0 ≤ (1 + ga) * la := by positivity
      nlinarith [mul_nonneg this h0b])
    rw [hG]; linarith
  rw [← hG] at hbig
  have hbr : 3 * G ≤ m.big := by
    have : 0 ≤ 3 * G * (la + lb) := by positivity
    linarith
  have hbp : 3 * G * (la + lb) ≤ m.big := by linarith
  obtain ⟨P, hP, hP'⟩ := mul_rot_errI m hb.affine (t6.trans hbr)
  obtain ⟨v, hv, hv'⟩ := mul_pos_errI m hb.affine (t7.trans hbp)
  have E1 : fro (P - rotPart Y * rotPart Z) ≤ 3 * ε * G := by
    have := mul_le_mul_of_nonneg_left t6 hγ
    have h2 : m.ζ ≤ m.ζ / ℓ * G := hζℓ.trans (le_mul_of_one_le_right (by positivity) hG1)
    have h3 : (m.γ + m.ζ / ℓ) * G ≤ ε * G := mul_le_mul_of_nonneg_right hε (by linarith)
    nlinarith
  have E2 : vlen (v - (rotPart Y *ᵥ posPart Z + posPart Y)) ≤ 3 * ε * G * (la + lb) := by
    have := mul_le_mul_of_nonneg_left t7 hγ
    have h2 : m.ζ ≤ m.ζ / ℓ * (la + lb) := by
      calc m.ζ = m.ζ / ℓ * ℓ := hζ'
        _ ≤ _ := mul_le_mul_of_nonneg_left hl (by positivity)
    have h4 : 0 ≤ m.ζ / ℓ * (la + lb) := by positivity
    have h2' : m.ζ / ℓ * (la + lb) ≤ m.ζ / ℓ * (la + lb) * G := le_mul_of_one_le_right h4 hG1
    have h3 : (m.γ + m.ζ / ℓ) * (G * (la + lb)) ≤ ε * (G * (la + lb)) := mul_le_mul_of_nonneg_right hε (by positivity)
    nlinarith
  have hlast := m.mul_last Y Z ha.affine hb.affine
  refine ⟨mkHom P v, ?_, ha.rigid.mul hb.rigid, mkHom_affine _ _, ?_, ?_, ?_⟩
  · intro i j
    rcases Fin.eq_castSucc_or_eq_last i with ⟨i, rfl⟩ | rfl
    · rcases Fin.eq_castSucc_or_eq_last j with ⟨j, rfl⟩ | rfl
      · rw [hP]; congr 1; exact (congrFun (congrFun (rotPart_mkHom P v) i) j).symm
      · exact (hv i).trans (congrArg Fl.fin (congrFun (posPart_mkHom P v) i).symm)
    · have : mkHom P v 3 = ![0, 0, 0, 1] := mkHom_affine P v
      show m.mul (finM Y) (finM Z) 3 j = .fin (mkHom P v 3 j)
      rw [hlast j, this]
  · rw [rotPart_mkHom, rotPart_mul hb.rigid.2]
    have : P - rotPart A * rotPart B =
        ((rotPart Y - rotPart A) * rotPart B + rotPart A * (rotPart Z - rotPart B)) +
          ((rotPart Y - rotPart A) * (rotPart Z - rotPart B) + (P - rotPart Y * rotPart Z)) := by
      noncomm_ring
    rw [this]
    have t1 := fro_add_le ((rotPart Y - rotPart A) * rotPart B + rotPart A * (rotPart Z - rotPart B))
          ((rotPart Y - rotPart A) * (rotPart Z - rotPart B) + (P - rotPart Y * rotPart Z))
    have t2 := fro_add_le ((rotPart Y - rotPart A) * rotPart B) (rotPart A * (rotPart Z - rotPart B))
    have t3 := fro_add_le ((rotPart Y - rotPart A) * (rotPart Z - rotPart B)) (P - rotPart Y * rotPart Z)
    rw [fro_mul_rot hRb, fro_rot_mul hRa] at t2
    have t4 := fro_mul_le (rotPart Y - rotPart A) (rotPart Z - rotPart B)
    have t5 : fro (rotPart Y - rotPart A) * fro (rotPart Z - rotPart B) ≤ ga * gb :=
      mul_le_mul ha.rot hb.rot (fro_nonneg _) h0a
    have h1 := ha.rot; have h2 := hb.rot
    have : (1 + ga) * (1 + gb) * (1 + 3 * ε) - 1 = ga + gb + ga * gb + 3 * ε * G := by rw [hG]; ring
    rw [this]
    linarith
  · rw [posPart_mul hb.rigid.2]
    refine (vlen_add_le _ _).trans ?_
    rw [vlen_rot hRa]
    linarith [ha.len, hb.len]
  · rw [posPart_mkHom, posPart_mul hb.rigid.2]
    have : v - (rotPart A *ᵥ posPart B + posPart A) =
        ((rotPart Y - rotPart A) *ᵥ posPart Z + rotPart A *ᵥ (posPart Z - posPart B)) +
          ((posPart Y - posPart A) + (v - (rotPart Y *ᵥ posPart Z + posPart Y))) := by
      rw [Matrix.sub_mulVec, Matrix.mulVec_sub]; abel
    rw [this]
    have t1 := vlen_add_le ((rotPart Y - rotPart A) *ᵥ posPart Z + rotPart A *ᵥ (posPart Z - posPart B))
          ((posPart Y - posPart A) + (v - (rotPart Y *ᵥ posPart Z + posPart Y)))
    have t2 := vlen_add_le ((rotPart Y - rotPart A) *ᵥ posPart Z) (rotPart A *ᵥ (posPart Z - posPart B))
    have t3 := vlen_add_le (posPart Y - posPart A) (v - (rotPart Y *ᵥ posPart Z + posPart Y))
    rw [vlen_rot hRa] at t2
    have t4 := vlen_mulVec_le (rotPart Y - rotPart A) (posPart Z)
    have t5 : fro (rotPart Y - rotPart A) * vlen (posPart Z) ≤ ga * ((1 + gb) * lb) :=
      mul_le_mul ha.rot vb (vlen_nonneg _) h0a
    have t9 : 0 ≤ gb * la * (1 + ga) := by positivity
    have h1 := ha.pos; have h2 := hb.pos
    have : ((1 + ga) * (1 + gb) * (1 + 3 * ε) - 1) * (la + lb) =
        ga * la + gb * la * (1 + ga) + (ga * ((1 + gb) * lb) + gb * lb) + 3 * ε * G * (la + lb) := by rw [hG]; ring
    rw [this]
    linarith

end PK
