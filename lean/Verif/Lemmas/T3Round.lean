import Verif.Spec.FloatT3
import Verif.Lemmas.Round
import Verif.Lemmas.Bzip
import Verif.Lemmas.Good

/-!
# Rounding errors of inverses, points and normals
-/

namespace PK
open Spec Matrix

theorem rotPart_invertMatrixFl (m : Machine) (T : M4) : rotPart (invertMatrixFl m T) = (rotPart T)ᵀ := by
  ext i j
  have hi : i.castSucc.val < 3 := i.2
  have hj : j.castSucc.val < 3 := j.2
  simp only [rotPart, invertMatrixFl, hi, hj, dif_pos, Matrix.transpose_apply]

theorem posPart_invertMatrixFl (m : Machine) (T : M4) :
    ∃ E : V3, posPart (invertMatrixFl m T) = -((rotPart T)ᵀ *ᵥ posPart T) + E ∧ vlen E ≤ m.γ * (fro (rotPart T) * vlen (posPart T)) := by
  refine ⟨posPart (invertMatrixFl m T) + (rotPart T)ᵀ *ᵥ posPart T, by abel, ?_⟩
  have h : ∀ i, |(posPart (invertMatrixFl m T) + (rotPart T)ᵀ *ᵥ posPart T) i| ≤
      (m.γ • (absM (rotPart T)ᵀ *ᵥ absV (posPart T))) i := by
    intro i
    have e1 : posPart (invertMatrixFl m T) i = m.dot (fun k => -rotPart T k i) (posPart T) := by
      have hi : i.castSucc.val < 3 := i.2
      simp only [posPart, invertMatrixFl, hi, dif_pos]
      rfl
    obtain ⟨θ, hθ, he⟩ := m.dot_err (fun k => -rotPart T k i) (posPart T)
    rw [Pi.add_apply, e1, he, Pi.smul_apply, Matrix.mulVec, Matrix.mulVec, dotProduct, dotProduct, smul_eq_mul, Finset.mul_sum,
      ← Finset.sum_add_distrib]
    refine (Finset.abs_sum_le_sum_abs _ _).trans (Finset.sum_le_sum fun k _ => ?_)
    have : -rotPart T k i * posPart T k * (1 + θ k) + (rotPart T)ᵀ i k * posPart T k = -(θ k) * (rotPart T k i * posPart T k) := by
      rw [Matrix.transpose_apply]; ring
    rw [this, abs_mul, abs_mul, abs_neg]
    exact mul_le_mul_of_nonneg_right (hθ _) (by positivity)
  refine (vlen_le_of_abs h).trans ?_
  rw [vlen_smul, abs_of_nonneg m.γ_nonneg]
  refine mul_le_mul_of_nonneg_left ((vlen_mulVec_le _ _).trans ?_) m.γ_nonneg
  rw [fro_absM, vlen_absV, fro_transpose]

theorem isRot_transpose {R : M3} (h : IsRot R) : IsRot Rᵀ := by
  rw [IsRot, Matrix.mem_specialOrthogonalGroup_iff, Matrix.mem_orthogonalGroup_iff] at *
  refine ⟨?_, by rw [Matrix.det_transpose]; exact h.2⟩
  have := isRot_tmul (R := R) (by rw [IsRot, Matrix.mem_specialOrthogonalGroup_iff, Matrix.mem_orthogonalGroup_iff]; exact h)
  simpa [Matrix.star_eq_conjTranspose] using this

theorem rigid_inv {X : M4} (h : IsRigid X) : X⁻¹ = mkHom (rotPart X)ᵀ (-((rotPart X)ᵀ *ᵥ posPart X)) := by
  have hR : IsRot (rotPart X) := h.1
  apply Matrix.inv_eq_right_inv
  conv_lhs => lhs; rw [eq_mkHom_of_affine h.2]
  rw [mkHom_mul, isRot_mult hR, Matrix.mulVec_neg, Matrix.mulVec_mulVec, isRot_mult hR, Matrix.one_mulVec, neg_add_cancel, mkHom_one]

theorem rigid_inv_rigid {X : M4} (h : IsRigid X) : IsRigid X⁻¹ := by
  rw [rigid_inv h]; exact isRigid_mkHom (isRot_transpose h.1) _

theorem vlen_neg (v : V3) : vlen (-v) = vlen v := by
  have := vlen_smul (-1) v
  simpa using this

theorem invertMatrixFl_affine (m : Machine) {T : M4} (h : IsAffine T) : IsAffine (invertMatrixFl m T) := by
  show (fun j => invertMatrixFl m T 3 j) = _
  have : (fun j => invertMatrixFl m T 3 j) = T 3 := by
    funext j; simp [invertMatrixFl]
  rw [this]; exact h

/-- the error of an inverse -/
theorem Spec.Within.inv (m : Machine) {g l : ℝ} {X' X : M4} (h : Within g l X' X) :
    Within ((1 + g) ^ 2 * (1 + 3 * m.γ) - 1) l (invertMatrixFl m X') X⁻¹ := by
  have hg := h.g_nonneg; have hl := h.l_nonneg; have hγ := m.γ_nonneg
  have hR : IsRot (rotPart X) := h.rigid.1
  have hs := one_le_sqrt3
  have hsq := sqrt3_le
  refine ⟨rigid_inv_rigid h.rigid, invertMatrixFl_affine m h.affine, ?_, ?_, ?_⟩
  · rw [rotPart_invertMatrixFl, rigid_inv h.rigid, rotPart_mkHom, ← Matrix.transpose_sub, fro_transpose]
    refine h.rot.trans ?_
    have : 0 ≤ (1 + g) ^ 2 * (3 * m.γ) := by positivity
    nlinarith
  · rw [rigid_inv h.rigid, posPart_mkHom, vlen_neg, vlen_rot (isRot_transpose hR)]
    exact h.len
  · obtain ⟨E, he, hE⟩ := posPart_invertMatrixFl m X'
    rw [he, rigid_inv h.rigid, posPart_mkHom]
    have e : -((rotPart X')ᵀ *ᵥ posPart X') + E - -((rotPart X)ᵀ *ᵥ posPart X) =
        (-((rotPart X' - rotPart X)ᵀ *ᵥ posPart X') + -((rotPart X)ᵀ *ᵥ (posPart X' - posPart X))) + E := by
      rw [Matrix.transpose_sub, Matrix.sub_mulVec, Matrix.mulVec_sub]; abel
    rw [e]
    have t1 := vlen_add_le (-((rotPart X' - rotPart X)ᵀ *ᵥ posPart X') + -((rotPart X)ᵀ *ᵥ (posPart X' - posPart X))) E
    have t2 := vlen_add_le (-((rotPart X' - rotPart X)ᵀ *ᵥ posPart X')) (-((rotPart X)ᵀ *ᵥ (posPart X' - posPart X)))
    rw [vlen_neg, vlen_neg, vlen_rot (isRot_transpose hR)] at t2
    have t3 := vlen_mulVec_le (rotPart X' - rotPart X)ᵀ (posPart X')
    rw [fro_transpose] at t3
    have va : vlen (posPart X') ≤ (1 + g) * l := by
      have := vlen_add_le (posPart X) (posPart X' - posPart X)
      rw [add_sub_cancel] at this
      nlinarith [h.len, h.pos]
    have fa := fro_sub_bound hR h.rot
    have t4 : fro (rotPart X' - rotPart X) * vlen (posPart X') ≤ g * ((1 + g) * l) := mul_le_mul h.rot va (vlen_nonneg _) hg
    have t5 : fro (rotPart X') * vlen (posPart X') ≤ (3 * (1 + g)) * ((1 + g) * l) :=
      mul_le_mul (fa.trans (by nlinarith)) va (vlen_nonneg _) (by positivity)
    have t6 := mul_le_mul_of_nonneg_left t5 hγ
    have := h.pos
    nlinarith

/-- translations are inverted exactly -/
theorem Spec.Within.invTranslate {g l : ℝ} {X' X : M4} (h : Within g l X' X) (h1 : rotPart X = 1) : Within g l (invertTranslate X') X⁻¹ := by
  have e1 : rotPart (invertTranslate X') = rotPart X' := by
    ext i j
    have hj : ¬ j.castSucc.val = 3 := by have := j.2; simp; omega
    simp only [rotPart, invertTranslate, hj, and_false, if_false, mul_one]
  have e2 : posPart (invertTranslate X') = -posPart X' := by
    ext i
    have hi : i.castSucc.val < 3 := i.2
    simp [posPart, invertTranslate, hi]
  have e3 : IsAffine (invertTranslate X') := by
    have := h.affine
    show (fun j => invertTranslate X' 3 j) = _
    rw [← this]; funext j; simp [invertTranslate]
  have e4 := rigid_inv h.rigid
  rw [h1, Matrix.transpose_one, Matrix.one_mulVec] at e4
  refine ⟨rigid_inv_rigid h.rigid, e3, ?_, ?_, ?_⟩
  · rw [e1, e4, rotPart_mkHom, ← h1]; exact h.rot
  · rw [e4, posPart_mkHom, vlen_neg]; exact h.len
  · rw [e2, e4, posPart_mkHom, neg_sub_neg, ← vlen_neg, neg_sub]; exact h.pos

/-- rotations are inverted exactly -/
theorem Spec.Within.invRotate {g l : ℝ} {X' X : M4} (h : Within g l X' X) (h0 : posPart X = 0) (h0' : posPart X' = 0) :
    Within g l X'ᵀ X⁻¹ := by
  have e : X'ᵀ = mkHom (rotPart X')ᵀ 0 := by
    conv_lhs => rw [eq_mkHom_of_affine h.affine, h0']
    ext i j; fin_cases i <;> fin_cases j <;> rfl
  have e4 := rigid_inv h.rigid
  rw [h0, Matrix.mulVec_zero, neg_zero] at e4
  refine ⟨rigid_inv_rigid h.rigid, by rw [e]; exact mkHom_affine _ _, ?_, ?_, ?_⟩
  · rw [e, e4, rotPart_mkHom, rotPart_mkHom, ← Matrix.transpose_sub, fro_transpose]; exact h.rot
  · rw [e4, posPart_mkHom, ← h0]; exact h.len
  · have := h.pos
    rw [e, e4, posPart_mkHom, posPart_mkHom]
    rwa [h0, h0'] at this

/-! ## points -/

theorem PointMachine.dot4_vec (m : PointMachine) (N : M4) (x : V3) :
    ∃ E : V3, (fun i : Fin 3 => m.dot4 ![x 0, x 1, x 2, 1] (N i.castSucc)) = rotPart N *ᵥ x + posPart N + E ∧
      vlen E ≤ m.γ * (fro (rotPart N) * vlen x + vlen (posPart N)) := by
  refine ⟨(fun i : Fin 3 => m.dot4 ![x 0, x 1, x 2, 1] (N i.castSucc)) - (rotPart N *ᵥ x + posPart N), by abel, ?_⟩
  have h : ∀ i, |((fun i : Fin 3 => m.dot4 ![x 0, x 1, x 2, 1] (N i.castSucc)) - (rotPart N *ᵥ x + posPart N)) i| ≤
      (m.γ • (absM (rotPart N) *ᵥ absV x + absV (posPart N))) i := by
    intro i
    obtain ⟨θ, hθ, he⟩ := m.dot4_err ![x 0, x 1, x 2, 1] (N i.castSucc)
    rw [Pi.sub_apply, he, Fin.sum_univ_castSucc, Pi.add_apply, Pi.smul_apply, Pi.add_apply, Matrix.mulVec, Matrix.mulVec,
      dotProduct, dotProduct]
    have hl : (Fin.last 3 : Fin 4) = 3 := rfl
    have h3 : (![x 0, x 1, x 2, 1] : Fin 4 → ℝ) 3 = 1 := rfl
    rw [hl, h3, one_mul, smul_eq_mul, mul_add m.γ, Finset.mul_sum]
    have e2 : ∀ S S' x : ℝ, S + x * (1 + θ 3) - (S' + x) = (S - S') + θ 3 * x := fun _ _ _ => by ring
    have e3 : posPart N i = N i.castSucc 3 := rfl
    rw [e3, e2, ← Finset.sum_sub_distrib]
    refine (abs_add_le _ _).trans (add_le_add ?_ ?_)
    · refine (Finset.abs_sum_le_sum_abs _ _).trans (Finset.sum_le_sum fun k _ => ?_)
      have hk : (![x 0, x 1, x 2, 1] : Fin 4 → ℝ) k.castSucc = x k := by fin_cases k <;> rfl
      have : (![x 0, x 1, x 2, 1] : Fin 4 → ℝ) k.castSucc * N i.castSucc k.castSucc * (1 + θ k.castSucc) - rotPart N i k * x k =
          θ k.castSucc * (rotPart N i k * x k) := by
        rw [hk]; simp only [rotPart]; ring
      rw [this, abs_mul, abs_mul]
      exact mul_le_mul_of_nonneg_right (hθ _) (by positivity)
    · rw [abs_mul]
      exact mul_le_mul_of_nonneg_right (hθ _) (abs_nonneg _)
  refine (vlen_le_of_abs h).trans ?_
  rw [vlen_smul, abs_of_nonneg m.γ_nonneg]
  refine mul_le_mul_of_nonneg_left ((vlen_add_le _ _).trans ?_) m.γ_nonneg
  rw [vlen_absV]
  refine add_le_add ((vlen_mulVec_le _ _).trans ?_) le_rfl
  rw [fro_absM, vlen_absV]

theorem vlen_rnd (m : Machine) (v : V3) : vlen ((fun i => m.rnd (v i)) - v) ≤ m.u * vlen v := by
  have h : ∀ i, |((fun i => m.rnd (v i)) - v) i| ≤ (m.u • absV v) i := fun i => m.rnd_err (v i)
  refine (vlen_le_of_abs h).trans ?_
  rw [vlen_smul, abs_of_nonneg m.u_nonneg, vlen_absV]

theorem act_eq (T : M4) (x : V3) : act T x = rotPart T *ᵥ x + posPart T := by
  funext i
  simp [act, rotPart, posPart, Matrix.mulVec, dotProduct, Fin.sum_univ_three]

theorem Spec.PointNear.s_nonneg {Q s : ℝ} {x' x : V3} (h : PointNear Q s x' x) : 0 ≤ s := (vlen_nonneg _).trans h.len

theorem Spec.PointNear.len' {Q s : ℝ} {x' x : V3} (h : PointNear Q s x' x) : vlen x' ≤ Q * s := by
  have := vlen_add_le x (x' - x)
  rw [add_sub_cancel] at this
  linarith [h.len, h.near]

theorem Spec.pointNear_refl (x : V3) : PointNear 1 (vlen x) x x := ⟨le_rfl, by simp [vlen]⟩

/-- a point of a cloud, with denominator 1 -/
theorem applyPointsFl_row {P : ℕ} (m : PointMachine) {eps : Option ℝ} (he : ∀ e, eps = some e → e ≤ 1) (X : Matrix (Fin P) (Fin 3) ℝ)
    {N : M4} (hN : IsAffine N) (p : Fin P) :
    applyPointsFl m eps X N p = fun i => m.rnd (m.dot4 ![X p 0, X p 1, X p 2, 1] (N i.castSucc)) := by
  have h1 : m.dot4 ![X p 0, X p 1, X p 2, 1] (N 3) = 1 := by
    rw [hN]; exact m.dot4_last _ rfl
  funext i
  rcases eps with _ | e
  · simp [applyPointsFl, h1]
  · have := he e rfl
    simp [applyPointsFl, h1, max_eq_left this]

/-- the error of a transformed point -/
theorem applyPointsFl_near {P : ℕ} (m : PointMachine) {eps : Option ℝ} (he : ∀ e, eps = some e → e ≤ 1) {F l Q s : ℝ} (hQ : 1 ≤ Q)
    {N T : M4} (hN : Within (F - 1) l N T) {X : Matrix (Fin P) (Fin 3) ℝ} {p : Fin P} {x : V3} (hx : PointNear Q s (X p) x) :
    PointNear (F * (1 + 3 * m.γ) * (1 + m.u) * Q) (s + l) (applyPointsFl m eps X N p) (act T x) := by
  have hF : 0 ≤ F - 1 := hN.g_nonneg
  have hl := hN.l_nonneg; have hs := hx.s_nonneg; have hγ := m.γ_nonneg; have hu := m.u_nonneg
  have hR : IsRot (rotPart T) := hN.rigid.1
  have h3 := sqrt3_le
  have h31 := one_le_sqrt3
  have lenT : vlen (act T x) ≤ s + l := by
    rw [act_eq]
    refine (vlen_add_le _ _).trans ?_
    rw [vlen_rot hR]
    exact add_le_add hx.len hN.len
  refine ⟨lenT, ?_⟩
  rw [applyPointsFl_row m he X hN.affine]
  obtain ⟨E, hz, hE⟩ := m.dot4_vec N (X p)
  set z : V3 := fun i => m.dot4 ![X p 0, X p 1, X p 2, 1] (N i.castSucc) with hzd
  have hx' := hx.len'
  have fa : fro (rotPart N) ≤ 3 * F := (fro_sub_bound hR hN.rot).trans (by linarith)
  have va : vlen (posPart N) ≤ F * l := by
    have := vlen_add_le (posPart T) (posPart N - posPart T)
    rw [add_sub_cancel] at this
    linarith [hN.len, hN.pos]
  have hFQ : F ≤ F * Q := by nlinarith
  have b1 : fro (rotPart N) * vlen (X p) ≤ 3 * F * (Q * s) := mul_le_mul fa hx' (vlen_nonneg _) (by linarith)
  have b2 : vlen (posPart N) ≤ 3 * F * Q * l := va.trans (by
    have : F * l ≤ F * Q * l := mul_le_mul_of_nonneg_right hFQ hl
    have h0 : 0 ≤ F * Q * l := by have : 0 ≤ F := by linarith
                                  positivity
    linarith)
  have b3 := mul_le_mul_of_nonneg_left (add_le_add b1 b2) hγ
  have hdiff : vlen (z - act T x) ≤ (F * (1 + 3 * m.γ) * Q - 1) * (s + l) := by
    have e : z - act T x = ((rotPart N - rotPart T) *ᵥ X p + rotPart T *ᵥ (X p - x)) + ((posPart N - posPart T) + E) := by
      rw [hz, act_eq, Matrix.sub_mulVec, Matrix.mulVec_sub]; abel
    rw [e]
    have t1 := vlen_add_le ((rotPart N - rotPart T) *ᵥ X p + rotPart T *ᵥ (X p - x)) ((posPart N - posPart T) + E)
    have t2 := vlen_add_le ((rotPart N - rotPart T) *ᵥ X p) (rotPart T *ᵥ (X p - x))
    have t3 := vlen_add_le (posPart N - posPart T) E
    rw [vlen_rot hR] at t2
    have t4 := vlen_mulVec_le (rotPart N - rotPart T) (X p)
    have t5 : fro (rotPart N - rotPart T) * vlen (X p) ≤ (F - 1) * (Q * s) := mul_le_mul hN.rot hx' (vlen_nonneg _) hF
    have := hx.near; have := hN.pos
    have t6 : (F - 1) * l ≤ (F * Q - 1) * l := mul_le_mul_of_nonneg_right (by linarith) hl
    nlinarith
  have hzl : vlen z ≤ F * (1 + 3 * m.γ) * Q * (s + l) := by
    have := vlen_add_le (act T x) (z - act T x)
    rw [add_sub_cancel] at this
    linarith
  have hr := vlen_rnd m.toMachine z
  have ht := vlen_add_le ((fun i => m.rnd (z i)) - z) (z - act T x)
  rw [sub_add_sub_cancel] at ht
  have := mul_le_mul_of_nonneg_left hzl hu
  show vlen ((fun i => m.rnd (z i)) - act T x) ≤ _
  linarith

/-- the error of a transformed normal -/
theorem applyNormalsFl_near {P : ℕ} (m : Machine) {F Q s : ℝ} (hQ : 1 ≤ Q) {N : M4} {R : M3} (hR : IsRot R)
    (hN : fro (rotPart N - R) ≤ F - 1) {X : Matrix (Fin P) (Fin 3) ℝ} {p : Fin P} {x : V3} (hx : PointNear Q s (X p) x) :
    PointNear (F * (1 + 3 * m.γ) * Q) s (applyNormalsFl m X N p) (Rᵀ *ᵥ x) := by
  have hF : 0 ≤ F - 1 := (fro_nonneg _).trans hN
  have hs := hx.s_nonneg; have hγ := m.γ_nonneg
  have hRt := isRot_transpose hR
  have h3 := sqrt3_le
  refine ⟨by rw [vlen_rot hRt]; exact hx.len, ?_⟩
  have hx' := hx.len'
  have fa : fro (rotPart N) ≤ 3 * F := (fro_sub_bound hR hN).trans (by linarith)
  have hE : vlen (applyNormalsFl m X N p - (rotPart N)ᵀ *ᵥ X p) ≤ m.γ * (fro (rotPart N) * vlen (X p)) := by
    have h : ∀ i, |(applyNormalsFl m X N p - (rotPart N)ᵀ *ᵥ X p) i| ≤ (m.γ • (absM (rotPart N)ᵀ *ᵥ absV (X p))) i := by
      intro i
      obtain ⟨θ, hθ, he⟩ := m.dot_err (X p) fun k => rotPart N k i
      have e1 : applyNormalsFl m X N p i = m.dot (X p) fun k => rotPart N k i := rfl
      rw [Pi.sub_apply, e1, he, Pi.smul_apply, Matrix.mulVec, Matrix.mulVec, dotProduct, dotProduct, smul_eq_mul, Finset.mul_sum,
        ← Finset.sum_sub_distrib]
      refine (Finset.abs_sum_le_sum_abs _ _).trans (Finset.sum_le_sum fun k _ => ?_)
      have : X p k * rotPart N k i * (1 + θ k) - (rotPart N)ᵀ i k * X p k = θ k * (rotPart N k i * X p k) := by
        rw [Matrix.transpose_apply]; ring
      rw [this, abs_mul, abs_mul]
      exact mul_le_mul_of_nonneg_right (hθ _) (by positivity)
    refine (vlen_le_of_abs h).trans ?_
    rw [vlen_smul, abs_of_nonneg m.γ_nonneg]
    refine mul_le_mul_of_nonneg_left ((vlen_mulVec_le _ _).trans ?_) m.γ_nonneg
    rw [fro_absM, vlen_absV, fro_transpose]
  have e : applyNormalsFl m X N p - Rᵀ *ᵥ x =
      (applyNormalsFl m X N p - (rotPart N)ᵀ *ᵥ X p) + ((rotPart N - R)ᵀ *ᵥ X p + Rᵀ *ᵥ (X p - x)) := by
    rw [Matrix.transpose_sub, Matrix.sub_mulVec, Matrix.mulVec_sub]; abel
  rw [e]
  have t1 := vlen_add_le (applyNormalsFl m X N p - (rotPart N)ᵀ *ᵥ X p) ((rotPart N - R)ᵀ *ᵥ X p + Rᵀ *ᵥ (X p - x))
  have t2 := vlen_add_le ((rotPart N - R)ᵀ *ᵥ X p) (Rᵀ *ᵥ (X p - x))
  rw [vlen_rot hRt] at t2
  have t3 := vlen_mulVec_le (rotPart N - R)ᵀ (X p)
  rw [fro_transpose] at t3
  have t4 : fro (rotPart N - R) * vlen (X p) ≤ (F - 1) * (Q * s) := mul_le_mul hN hx' (vlen_nonneg _) hF
  have t5 : fro (rotPart N) * vlen (X p) ≤ 3 * F * (Q * s) := mul_le_mul fa hx' (vlen_nonneg _) (by linarith)
  have t6 := mul_le_mul_of_nonneg_left t5 hγ
  have := hx.near
  nlinarith

end PK
