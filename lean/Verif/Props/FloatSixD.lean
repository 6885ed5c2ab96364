import Verif.Model.FloatSixD
import Verif.Lemmas.So3LogRound
import Verif.Lemmas.LoadRound2
import Verif.Props.FloatLoad
import Verif.Props.Pose
import Verif.Props.FloatSo3
import Verif.Props.FloatIK

/-!
# C141: accuracy of `rotation_6d_to_matrix`
-/

namespace PK
open Spec Matrix

/-- `F.normalize` of a vector near `c p`, `p` a unit vector; `e` is the error of the entries relative to `c` -/
theorem fNormalizeFl_near (m : TrigMachine) {τ : ℝ} (hu : m.u ≤ τ) (hγ : m.γ ≤ τ) (h0 : 0 ≤ τ) (h1 : τ ≤ 1 / 1000)
    {v p : V3} (hp : IsUnitV p) {c e : ℝ} (hc : 2e-12 ≤ c) (he : e ≤ 1 / 50) (hv : ∀ i, |v i - c * p i| ≤ e * c) (i : Fin 3) :
    |fNormalizeFl m v i - p i| ≤ 3.4 * e + 2.3 * τ := by
  have hcp : 0 < c := lt_of_lt_of_le (by norm_num) hc
  have he0 : 0 ≤ e := by
    have := (abs_nonneg _).trans (hv 0)
    exact nonneg_of_mul_nonneg_left this hcp
  have hpl : vlen (c • p) = c := by
    rw [vlen_smul, abs_of_pos hcp]
    have : vlen p = 1 := by
      have h : p 0 ^ 2 + p 1 ^ 2 + p 2 ^ 2 = 1 := hp
      rw [vlen, h, Real.sqrt_one]
    rw [this, mul_one]
  have hd : vlen (v - c • p) ≤ 2 * (e * c) := vlen_le_of_entries (by positivity) fun i => by
    simpa using hv i
  have n1 : |norm3 v - c| ≤ 2 * (e * c) := by
    rw [← vlen_eq_norm3]
    have t1 := vlen_add_le (v - c • p) (c • p)
    have t2 := vlen_sub_le v (v - c • p)
    rw [sub_add_cancel, hpl] at t1
    rw [sub_sub_cancel, hpl] at t2
    rw [abs_le]; constructor <;> linarith
  have hec : e * c ≤ 1 / 50 * c := mul_le_mul_of_nonneg_right he hcp.le
  have hec0 : 0 ≤ e * c := by positivity
  have n1' := abs_le.1 n1
  have n2 := m.norm_err v
  have n3 : m.γ * norm3 v ≤ τ * norm3 v := mul_le_mul_of_nonneg_right hγ (norm3_nonneg v)
  have n4 : τ * norm3 v ≤ τ * (1.04 * c) := mul_le_mul_of_nonneg_left (by norm_num; linarith) h0
  have n5 : |m.norm v - c| ≤ 2 * (e * c) + 1.04 * (τ * c) := by
    have := abs_sub_le (m.norm v) (norm3 v) c
    linarith
  have hτc : τ * c ≤ 1 / 1000 * c := mul_le_mul_of_nonneg_right h1 hcp.le
  have n5' := abs_le.1 n5
  have hlo : 0.95 * c ≤ m.norm v := by norm_num at *; linarith
  have hmax : max (m.norm v) (m.rnd 1e-12) = m.norm v := by
    apply max_eq_left
    have := (abs_le.1 (m.rnd_err 1e-12)).2
    rw [abs_of_pos (by norm_num)] at this
    have h3 : m.u * 1e-12 ≤ 1 / 1000 * 1e-12 := mul_le_mul_of_nonneg_right (hu.trans h1) (by norm_num)
    norm_num at *; linarith
  have hnp : 0 < m.norm v := by norm_num at *; linarith
  have hpi := unit_comp_le hp i
  have q1 : |v i / m.norm v - p i| ≤ 3.2 * e + 1.1 * τ := by
    have e1 : v i / m.norm v - p i = (v i - c * p i - p i * (m.norm v - c)) / m.norm v := by field_simp; ring
    rw [e1, abs_div, abs_of_pos hnp, div_le_iff₀ hnp]
    have t1 : |v i - c * p i - p i * (m.norm v - c)| ≤ e * c + (2 * (e * c) + 1.04 * (τ * c)) := by
      refine (abs_sub _ _).trans (add_le_add (hv i) ?_)
      rw [abs_mul]
      exact (mul_le_of_le_one_left (abs_nonneg _) hpi).trans n5
    have t2 : (3.2 * e + 1.1 * τ) * (0.95 * c) ≤ (3.2 * e + 1.1 * τ) * m.norm v := mul_le_mul_of_nonneg_left hlo (by positivity)
    have t3 : (3.2 * e + 1.1 * τ) * (0.95 * c) = 3.04 * (e * c) + 1.045 * (τ * c) := by ring
    have t4 : 0 ≤ τ * c := by positivity
    norm_num at *; linarith
  unfold fNormalizeFl
  rw [hmax]
  refine (rnd_near m.toMachine hu q1 hpi).trans ?_
  have e2 : 3.2 * e + 1.1 * τ + τ * (1 + (3.2 * e + 1.1 * τ)) = 3.2 * e + 2.1 * τ + 3.2 * (τ * e) + 1.1 * (τ * τ) := by ring
  rw [e2]
  have t5 : τ * e ≤ 1 / 1000 * e := mul_le_mul_of_nonneg_right h1 he0
  have t6 : τ * τ ≤ 1 / 1000 * τ := mul_le_mul_of_nonneg_right h1 h0
  norm_num at *; linarith

theorem det2_near_basis (m : Machine) {τ : ℝ} (hγ : m.γ ≤ τ) {a b c d a' b' c' d' k : ℝ} (hk : k ≤ 1 / 1000) (hτk : τ ≤ k) (h0 : 0 ≤ τ)
    (ha : |a - a'| ≤ 2.3 * k) (hb : |b - b'| ≤ 52 * k) (hc : |c - c'| ≤ 2.3 * k) (hd : |d - d'| ≤ 52 * k)
    (ha' : |a'| ≤ 1) (hb' : |b'| ≤ 1) (hc' : |c'| ≤ 1) (hd' : |d'| ≤ 1) :
    |m.det2 a b c d - (a' * b' - c' * d')| ≤ 120 * k := by
  have k0 : 0 ≤ k := h0.trans hτk
  have kk : k * k ≤ 1 / 1000 * k := mul_le_mul_of_nonneg_right hk k0
  have key : ∀ {x y x' y' : ℝ}, |x - x'| ≤ 2.3 * k → |y - y'| ≤ 52 * k → |x'| ≤ 1 → |y'| ≤ 1 → ∀ θ : ℝ, |θ| ≤ m.γ →
      |x * y * (1 + θ) - x' * y'| ≤ 56 * k := by
    intro x y x' y' hx hy hx' hy' θ hθ
    have a1 := mul_near hx hx' hy hy'
    have a2 : |x * y - x' * y'| ≤ 54.5 * k := by
      refine a1.trans ?_
      have : 1 * (52 * k) + 1 * (2.3 * k) + 2.3 * k * (52 * k) = 54.3 * k + 119.6 * (k * k) := by ring
      rw [this]; norm_num; linarith only [kk, k0]
    have b1 : |x' * y'| ≤ 1 := by
      rw [abs_mul]; exact mul_le_one₀ hx' (abs_nonneg _) hy'
    have b2 : |x * y| ≤ 1.06 := by
      have := abs_add_le (x * y - x' * y') (x' * y')
      rw [sub_add_cancel] at this
      norm_num at *; linarith only [this, a2, b1, hk]
    have e : x * y * (1 + θ) - x' * y' = x * y - x' * y' + x * y * θ := by ring
    rw [e]
    refine (abs_add_le _ _).trans ?_
    have b3 : |x * y * θ| ≤ 1.06 * k := by
      rw [abs_mul]; exact mul_le_mul b2 (hθ.trans (hγ.trans hτk)) (abs_nonneg _) (by norm_num)
    norm_num at *; linarith only [a2, b3, k0]
  obtain ⟨θ, θ', h1, h2, e⟩ := m.det2_err a b c d
  rw [e]
  refine (sub_near (key ha hb ha' hb' θ h1) (key hc hd hc' hd' θ' h2)).trans ?_
  linarith only [k0]

/-- C141: let `R` be a rotation, `a1` a positive multiple `α` of its first row and `a2 = β R₀ + γ R₁` with positive `γ`, so that `R` is
the rotation that Gram-Schmidt orthogonalisation of `a1`, `a2` gives.  The matrix computed by `rotation_6d_to_matrix` differs from
`R` in every entry by at most `120 τ (|β| + γ) / γ`, that is, the error grows with the inverse of the sine of the angle between
`a1` and `a2` and with nothing else. -/
theorem C141_rotation_6d (m : TrigMachine) {τ : ℝ} (hu : m.u ≤ τ) (hγ : m.γ ≤ τ) (h0 : 0 ≤ τ) {R : M3} (hR : IsRot R)
    {α β γ : ℝ} (hα : 2e-12 ≤ α) (hγ' : 2e-12 ≤ γ) (hsmall : 1000 * τ * (|β| + γ) ≤ γ) (i j : Fin 3) :
    |rotation6dToMatrixFl m (α • R 0) (β • R 0 + γ • R 1) i j - R i j| ≤ 120 * (τ * (|β| + γ) / γ) := by
  obtain ⟨r00, r11, _, r01, _, _, _, _, _, _, _, _, _, _, _, _, _, _, k20, k21, k22⟩ := hR.eqs
  have hp : IsUnitV (R 0) := by
    show R 0 0 ^ 2 + R 0 1 ^ 2 + R 0 2 ^ 2 = 1; linarith
  have hq : IsUnitV (R 1) := by
    show R 1 0 ^ 2 + R 1 1 ^ 2 + R 1 2 ^ 2 = 1; linarith
  have hγp : 0 < γ := lt_of_lt_of_le (by norm_num) hγ'
  obtain ⟨A, hA⟩ : ∃ A, A = |β| + γ := ⟨_, rfl⟩
  have hβ := abs_nonneg β
  have hAγ : γ ≤ A := by linarith
  have hAβ : |β| ≤ A := by linarith
  have hAp : 0 < A := by linarith
  rw [← hA] at hsmall ⊢
  obtain ⟨k, hk⟩ : ∃ k, k = τ * A / γ := ⟨_, rfl⟩
  rw [← hk]
  have hkγ : k * γ = τ * A := by rw [hk]; field_simp
  have hk1 : k ≤ 1 / 1000 := by rw [hk, div_le_iff₀ hγp]; linarith
  have hτk : τ ≤ k := by rw [hk, le_div_iff₀ hγp]; exact mul_le_mul_of_nonneg_left hAγ h0
  have h1 : τ ≤ 1 / 1000 := hτk.trans hk1
  have hk0 : 0 ≤ k := h0.trans hτk
  -- first row
  have B1 : ∀ i, |fNormalizeFl m (α • R 0) i - R 0 i| ≤ 2.3 * τ := fun i => by
    have := fNormalizeFl_near m hu hγ h0 h1 hp hα (e := 0) (by norm_num) (v := α • R 0) (fun i => by simp) i
    linarith
  set b1 := fNormalizeFl m (α • R 0) with hb1
  have pl := unit_comp_le hp
  have ql := unit_comp_le hq
  set a2 : V3 := β • R 0 + γ • R 1 with ha2
  have ea : ∀ i, a2 i = β * R 0 i + γ * R 1 i := fun i => rfl
  have al : ∀ i, |a2 i| ≤ A := fun i => by
    rw [ea, hA]
    refine (abs_add_le _ _).trans (add_le_add ?_ ?_)
    · rw [abs_mul]; exact mul_le_of_le_one_right hβ (pl i)
    · rw [abs_mul, abs_of_pos hγp]; exact mul_le_of_le_one_right hγp.le (ql i)
  have hτA : 0 ≤ τ * A := by positivity
  have hττA : τ * (τ * A) ≤ 1 / 1000 * (τ * A) := mul_le_mul_of_nonneg_right h1 hτA
  -- the projection
  have S : |m.dot b1 a2 - β| ≤ 10 * (τ * A) := by
    obtain ⟨θ, hθ, e⟩ := m.dot_err b1 a2
    have e1 : β = R 0 0 * a2 0 + R 0 1 * a2 1 + R 0 2 * a2 2 := by
      simp only [ea]
      linear_combination (-β) * r00 - γ * r01
    have key : ∀ i, |b1 i * a2 i * (1 + θ i) - R 0 i * a2 i| ≤ 3.31 * (τ * A) := fun i => by
      have e2 : b1 i * a2 i * (1 + θ i) - R 0 i * a2 i = a2 i * (b1 i - R 0 i + b1 i * θ i) := by ring
      have hbl : |b1 i| ≤ 1.003 := by
        have := abs_add_le (b1 i - R 0 i) (R 0 i)
        rw [sub_add_cancel] at this
        have h5 := B1 i
        norm_num at *; linarith [pl i]
      have t1 : |b1 i * θ i| ≤ 1.003 * τ := by
        rw [abs_mul]; exact mul_le_mul hbl ((hθ i).trans hγ) (abs_nonneg _) (by norm_num)
      have t2 : |b1 i - R 0 i + b1 i * θ i| ≤ 3.31 * τ := by
        refine (abs_add_le _ _).trans ?_
        have := B1 i
        norm_num at *; linarith
      rw [e2, abs_mul]
      calc _ ≤ A * (3.31 * τ) := mul_le_mul (al i) t2 (abs_nonneg _) hAp.le
        _ = _ := by ring
    rw [e, Fin.sum_univ_three]
    have e3 : b1 0 * a2 0 * (1 + θ 0) + b1 1 * a2 1 * (1 + θ 1) + b1 2 * a2 2 * (1 + θ 2) - β =
        (b1 0 * a2 0 * (1 + θ 0) - R 0 0 * a2 0) + (b1 1 * a2 1 * (1 + θ 1) - R 0 1 * a2 1) +
        (b1 2 * a2 2 * (1 + θ 2) - R 0 2 * a2 2) := by rw [e1]; ring
    rw [e3]
    refine (abs_add_three _ _ _).trans ?_
    have := key 0; have := key 1; have := key 2
    norm_num at *; linarith
  set s := m.dot b1 a2 with hs
  -- the second vector before its normalisation
  have C : ∀ i, |m.rnd (a2 i - m.rnd (s * b1 i)) - γ * R 1 i| ≤ 14.6 * k * γ := fun i => by
    have t1 := mul_near S hAβ (B1 i) (pl i)
    have t2 : |s * b1 i - β * R 0 i| ≤ 12.4 * (τ * A) := by
      refine t1.trans ?_
      have : A * (2.3 * τ) + 1 * (10 * (τ * A)) + 10 * (τ * A) * (2.3 * τ) = 12.3 * (τ * A) + 23 * (τ * (τ * A)) := by ring
      rw [this]; norm_num; linarith only [hττA, hτA]
    have t3 : |β * R 0 i| ≤ A := by
      rw [abs_mul]; exact (mul_le_of_le_one_right hβ (pl i)).trans hAβ
    have t4 : |m.rnd (s * b1 i) - β * R 0 i| ≤ 13.5 * (τ * A) := by
      refine (rnd_near m.toMachine hu t2 t3).trans ?_
      have : τ * (A + 12.4 * (τ * A)) = τ * A + 12.4 * (τ * (τ * A)) := by ring
      rw [this]; norm_num; linarith only [hττA, hτA]
    have t5 : |a2 i - m.rnd (s * b1 i) - γ * R 1 i| ≤ 13.5 * (τ * A) := by
      have : a2 i - m.rnd (s * b1 i) - γ * R 1 i = -(m.rnd (s * b1 i) - β * R 0 i) := by rw [ea]; ring
      rw [this, abs_neg]; exact t4
    have t6 : |γ * R 1 i| ≤ A := by
      rw [abs_mul, abs_of_pos hγp]; exact (mul_le_of_le_one_right hγp.le (ql i)).trans hAγ
    refine (rnd_near m.toMachine hu t5 t6).trans ?_
    have : τ * (A + 13.5 * (τ * A)) = τ * A + 13.5 * (τ * (τ * A)) := by ring
    have e7 : 14.6 * k * γ = 14.6 * (τ * A) := by rw [mul_assoc, hkγ]
    rw [this, e7]; norm_num; linarith only [hττA, hτA]
  have B2 : ∀ i, |fNormalizeFl m (fun i => m.rnd (a2 i - m.rnd (s * b1 i))) i - R 1 i| ≤ 52 * k := fun i => by
    refine (fNormalizeFl_near m hu hγ h0 h1 hq hγ' (e := 14.6 * k) (by norm_num; linarith) C i).trans ?_
    norm_num; linarith only [hτk, hk0]
  unfold rotation6dToMatrixFl
  rw [← hb1, ← hs]
  set b2 := fNormalizeFl m (fun i => m.rnd (a2 i - m.rnd (s * b1 i))) with hb2
  have B1' : ∀ i, |b1 i - R 0 i| ≤ 2.3 * k := fun i => (B1 i).trans (by norm_num; linarith only [hτk])
  have z1 : ∀ i, |b1 i - R 0 i| ≤ 120 * k := fun i => (B1' i).trans (by norm_num; linarith only [hk0])
  have z2 : ∀ i, |b2 i - R 1 i| ≤ 120 * k := fun i => (B2 i).trans (by linarith only [hk0])
  have z30 := det2_near_basis m.toMachine hγ hk1 hτk h0 (B1' 1) (B2 2) (B1' 2) (B2 1) (pl 1) (ql 2) (pl 2) (ql 1)
  have z31 := det2_near_basis m.toMachine hγ hk1 hτk h0 (B1' 2) (B2 0) (B1' 0) (B2 2) (pl 2) (ql 0) (pl 0) (ql 2)
  have z32 := det2_near_basis m.toMachine hγ hk1 hτk h0 (B1' 0) (B2 1) (B1' 1) (B2 0) (pl 0) (ql 1) (pl 1) (ql 0)
  rw [← k20] at z30
  rw [← k21] at z31
  rw [← k22] at z32
  fin_cases i <;> fin_cases j
  · exact z1 0
  · exact z1 1
  · exact z1 2
  · exact z2 0
  · exact z2 1
  · exact z2 2
  · exact z30
  · exact z31
  · exact z32

/-- every pair of linearly independent vectors is of the form of `C141_rotation_6d`: `α` is the length of `a1`, `β` the component of
`a2` along `a1` and `γ` the distance of `a2` from the line through `a1` -/
theorem C141_every_pair {a1 a2 : V3} (h : crossProduct a1 a2 ≠ 0) :
    ∃ R α β γ, IsRot R ∧ 0 < α ∧ 0 < γ ∧ a1 = α • R 0 ∧ a2 = β • R 0 + γ • R 1 ∧
      α = vlen a1 ∧ β * vlen a1 = a1 ⬝ᵥ a2 ∧ γ * vlen a1 = vlen (crossProduct a1 a2) := by
  have hz : ∀ v : V3, v ≠ 0 → 0 < norm3 v := fun v hv => by
    refine lt_of_le_of_ne (Real.sqrt_nonneg _) fun h0 => hv ?_
    have h1 : dot v v = 0 := by rw [← norm3_sq, ← h0]; ring
    unfold dot at h1
    have z0 : v 0 = 0 := by nlinarith [sq_nonneg (v 0), sq_nonneg (v 1), sq_nonneg (v 2)]
    have z1 : v 1 = 0 := by nlinarith [sq_nonneg (v 0), sq_nonneg (v 1), sq_nonneg (v 2)]
    have z2 : v 2 = 0 := by nlinarith [sq_nonneg (v 0), sq_nonneg (v 1), sq_nonneg (v 2)]
    funext i
    fin_cases i
    exacts [z0, z1, z2]
  have hn : 0 < norm3 a1 := hz a1 (by rintro rfl; simp at h)
  have hx := hz _ h
  set b1 : V3 := fun i => a1 i / norm3 a1 with hb1
  have hb1u : dot b1 b1 = 1 := dot_unit_of_norm hn.ne'
  set c : V3 := fun i => a2 i - dot b1 a2 * b1 i with hc
  have hab : dot b1 c = 0 := by
    have : dot b1 c = dot b1 a2 - dot b1 a2 * dot b1 b1 := by simp only [hc, dot]; ring
    rw [this, hb1u]; ring
  have e3 : dot b1 a2 = dot a1 a2 / norm3 a1 := by simp only [hb1, dot]; field_simp
  have hcn : norm3 c * norm3 a1 = norm3 (crossProduct a1 a2) := by
    have e1 : dot c c * dot a1 a1 = dot (crossProduct a1 a2) (crossProduct a1 a2) := by
      have e2 : dot c c = dot a2 a2 - dot b1 a2 ^ 2 := by
        have : dot c c = dot a2 a2 - 2 * dot b1 a2 ^ 2 + dot b1 a2 ^ 2 * dot b1 b1 := by
          simp only [hc, dot]; ring
        rw [this, hb1u]; ring
      rw [e2, e3, div_pow, norm3_sq]
      have : dot a1 a1 ≠ 0 := by rw [← norm3_sq]; positivity
      field_simp
      simp only [dot, crossProduct]; simp; ring
    unfold norm3
    rw [← Real.sqrt_mul (dot_self_nonneg c), e1]
  have hcl : 0 < norm3 c := by
    rw [← hcn] at hx
    exact pos_of_mul_pos_left hx hn.le
  have hu : dot (fun i => c i / norm3 c) (fun i => c i / norm3 c) = 1 := dot_unit_of_norm hcl.ne'
  have ho : dot b1 (fun i => c i / norm3 c) = 0 := by
    have : dot b1 (fun i => c i / norm3 c) = dot b1 c / norm3 c := by simp only [dot]; ring
    rw [this, hab, zero_div]
  refine ⟨_, norm3 a1, dot b1 a2, norm3 c, isRot_of_pair hb1u hu ho, hn, hcl, ?_, ?_, ?_, ?_, ?_⟩
  · funext i
    fin_cases i <;> simp [hb1] <;> field_simp
  · have hci : ∀ i, a2 i = dot b1 a2 * b1 i + norm3 c * (c i / norm3 c) := fun i => by
      rw [mul_div_cancel₀ _ hcl.ne']; simp only [hc]; ring
    funext i
    fin_cases i
    exacts [hci 0, hci 1, hci 2]
  · rw [vlen_eq_norm3]
  · rw [vlen_eq_norm3, e3]
    simp only [dot, dotProduct, Fin.sum_univ_three]
    field_simp
  · rw [vlen_eq_norm3, vlen_eq_norm3, hcn]

example : crossProduct ![1, 2, 0] ![(0 : ℝ), 3, 5] ≠ 0 := fun h => by
  have := congrFun h 0
  simp [crossProduct] at this

/-- C141: `rotation_6d_to_matrix(matrix_to_rotation_6d(R))`, the latter a copy of the first two rows, returns a rotation `R` up to
`120 τ` in every entry -/
theorem C141_round_trip (m : TrigMachine) {τ : ℝ} (hu : m.u ≤ τ) (hγ : m.γ ≤ τ) (h0 : 0 ≤ τ) (h1 : 1000 * τ ≤ 1) {R : M3}
    (hR : IsRot R) (i j : Fin 3) :
    |rotation6dToMatrixFl m (matrixToRotation6d R).1 (matrixToRotation6d R).2 i j - R i j| ≤ 120 * τ := by
  have h := C141_rotation_6d m hu hγ h0 hR (α := 1) (β := 0) (γ := 1) (by norm_num) (by norm_num) (by simpa using h1) i j
  simpa [matrixToRotation6d] using h

/-- C141 in a binary format with `q ≥ 13` bits: the entries are within `600 / 2^q` divided by the sine-like ratio `γ / (|β| + γ)` -/
theorem C141_precision (q : ℕ) (hq : 13 ≤ q) {R : M3} (hR : IsRot R) {α β γ : ℝ} (hα : 2e-12 ≤ α) (hγ' : 2e-12 ≤ γ)
    (hsmall : 5000 * (|β| + γ) ≤ 2 ^ q * γ) (i j : Fin 3) :
    |rotation6dToMatrixFl (binaryTrig q (by omega)) (α • R 0) (β • R 0 + γ • R 1) i j - R i j| ≤ 600 * (|β| + γ) / (2 ^ q * γ) := by
  obtain ⟨hU, _, hG⟩ := binaryTrig_bounds q (by omega)
  have hp : (0 : ℝ) < 2 ^ q := by positivity
  have hp' : (0 : ℝ) ≤ 1 / 2 ^ q := by positivity
  have hγp : 0 < γ := lt_of_lt_of_le (by norm_num) hγ'
  refine (C141_rotation_6d (binaryTrig q (by omega)) (τ := 5 * (1 / 2 ^ q)) (by linarith) hG (by linarith) hR hα hγ' ?_ i j).trans
    (le_of_eq ?_)
  · have : 1000 * (5 * (1 / 2 ^ q)) * (|β| + γ) = 5000 * (|β| + γ) / 2 ^ q := by ring
    rw [this, div_le_iff₀ hp]; linarith
  · field_simp
    ring

/-- `a1 = (2, 0, 0)`, `a2 = (1, 3, 0)` in `float32`: the identity up to `800 / 2^24` -/
example (i j : Fin 3) : |rotation6dToMatrixFl (binaryTrig 24 (by omega)) ![2, 0, 0] ![1, 3, 0] i j - (1 : M3) i j| ≤ 800 / 2 ^ 24 := by
  have h := C141_precision 24 (by omega) isRot_one (α := 2) (β := 1) (γ := 3) (by norm_num) (by norm_num) (by norm_num) i j
  have e1 : (2 : ℝ) • (1 : M3) 0 = ![2, 0, 0] := by funext k; fin_cases k <;> simp
  have e2 : (1 : ℝ) • (1 : M3) 0 + (3 : ℝ) • (1 : M3) 1 = ![1, 3, 0] := by funext k; fin_cases k <;> simp
  rw [e1, e2] at h
  refine h.trans ?_
  norm_num

end PK
