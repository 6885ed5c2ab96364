import Verif.Lemmas.JacRound
import Verif.Model.FloatGrad

/-!
# Rounding errors of the analytical backward pass
-/

namespace PK
open Spec Matrix

/-- `v'` is `v` up to the factor `E`, relative to `s` -/
structure NearV (E s : ℝ) (v' v : V3) : Prop where
  near : vlen (v' - v) ≤ (E - 1) * s
  len : vlen v ≤ s

theorem NearV.s_nonneg {E s : ℝ} {v' v : V3} (h : NearV E s v' v) : 0 ≤ s := (vlen_nonneg _).trans h.len

theorem NearV.len' {E s : ℝ} {v' v : V3} (h : NearV E s v' v) : vlen v' ≤ E * s :=
  (vlen_le_of_near h.near h.len).trans (le_of_eq (by ring))

theorem NearV.mono {E E' s : ℝ} {v' v : V3} (h : NearV E s v' v) (hE : E ≤ E') : NearV E' s v' v :=
  ⟨h.near.trans (mul_le_mul_of_nonneg_right (by linarith) h.s_nonneg), h.len⟩

theorem NearV.mono_s {E s s' : ℝ} {v' v : V3} (h : NearV E s v' v) (hE : 1 ≤ E) (hs : s ≤ s') : NearV E s' v' v :=
  ⟨h.near.trans (mul_le_mul_of_nonneg_left hs (by linarith)), h.len.trans hs⟩

theorem nearV_refl (v : V3) : NearV 1 (vlen v) v v := ⟨by simp [vlen], le_rfl⟩

/-- an operation on each component -/
theorem NearV.rnd (m : Machine) {E s : ℝ} {v' v : V3} (h : NearV E s v' v) : NearV (E * (1 + m.u)) s (fun i => m.rnd (v' i)) v := by
  refine ⟨(vlen_tri (rnd_vec m v') h.near).trans ?_, h.len⟩
  have := mul_le_mul_of_nonneg_left h.len' m.u_nonneg
  nlinarith

theorem NearV.add {E s s2 : ℝ} {v' v w' w : V3} (h : NearV E s v' v) (h2 : NearV E s2 w' w) : NearV E (s + s2) (v' + w') (v + w) := by
  refine ⟨?_, (vlen_add_le _ _).trans (add_le_add h.len h2.len)⟩
  have e : v' + w' - (v + w) = (v' - v) + (w' - w) := by abel
  rw [e]
  refine (vlen_add_le _ _).trans ?_
  have := h.near; have := h2.near
  linarith

theorem NearV.sub {E s s2 : ℝ} {v' v w' w : V3} (h : NearV E s v' v) (h2 : NearV E s2 w' w) : NearV E (s + s2) (v' - w') (v - w) := by
  refine ⟨?_, (vlen_sub_le _ _).trans (add_le_add h.len h2.len)⟩
  have e : v' - w' - (v - w) = (v' - v) - (w' - w) := by abel
  rw [e]
  refine (vlen_sub_le _ _).trans ?_
  have := h.near; have := h2.near
  linarith

/-- `torch.cross` of two approximations -/
theorem NearV.cross (m : Machine) {E s E2 s2 : ℝ} {v' v w' w : V3} (hE : 1 ≤ E) (hE2 : 1 ≤ E2) (h : NearV E s v' v)
    (h2 : NearV E2 s2 w' w) : NearV (E * E2 * (1 + 2 * m.γ)) (s * s2) (crossFl m v' w') (PK.cross v w) := by
  have hs := h.s_nonneg
  have hs2 := h2.s_nonneg
  refine ⟨?_, (vlen_cross_le _ _).trans (mul_le_mul h.len h2.len (vlen_nonneg _) hs)⟩
  have h3 := crossFl_near m v' w'
  have h4 : vlen (PK.cross v' w' - PK.cross v w) ≤ (E * E2 - 1) * (s * s2) := by
    have e : PK.cross v' w' - PK.cross v w = PK.cross (v' - v) w' + PK.cross v (w' - w) := by
      rw [cross_sub_left, cross_sub_right]; abel
    rw [e]
    refine (vlen_add_le _ _).trans ?_
    have a1 := (vlen_cross_le (v' - v) w').trans (mul_le_mul h.near h2.len' (vlen_nonneg _) (mul_nonneg (by linarith) hs))
    have a2 := (vlen_cross_le v (w' - w)).trans (mul_le_mul h.len h2.near (vlen_nonneg _) hs)
    nlinarith
  have h5 : vlen v' * vlen w' ≤ E * s * (E2 * s2) :=
    mul_le_mul h.len' h2.len' (vlen_nonneg _) (mul_nonneg (by linarith) hs)
  have h6 := mul_le_mul_of_nonneg_left h5 (show 0 ≤ 2 * m.γ by have := m.γ_nonneg; linarith)
  refine (vlen_tri (h3.trans h6) h4).trans (le_of_eq ?_)
  ring

theorem abs_dot_le (a b : V3) : |dot a b| ≤ vlen a * vlen b := by
  have h : dot a b = a ⬝ᵥ b := by simp [dot, dotProduct, Fin.sum_univ_three]
  have h1 : (dot a b) ^ 2 ≤ (vlen a * vlen b) ^ 2 := by
    rw [mul_pow, vlen_sq, vlen_sq]
    simp only [dotProduct, Fin.sum_univ_three, dot]
    nlinarith [sq_nonneg (a 0 * b 1 - a 1 * b 0), sq_nonneg (a 0 * b 2 - a 2 * b 0), sq_nonneg (a 1 * b 2 - a 2 * b 1)]
  exact abs_le_of_sq_le_sq h1 (mul_nonneg (vlen_nonneg _) (vlen_nonneg _))

theorem dot_near (m : Machine) (a b : V3) : |m.dot a b - dot a b| ≤ m.γ * (vlen a * vlen b) := by
  obtain ⟨θ, hθ, e⟩ := m.dot_err a b
  have h1 : |m.dot a b - dot a b| ≤ m.γ * dot (absV a) (absV b) := by
    rw [e, Fin.sum_univ_three, show a 0 * b 0 * (1 + θ 0) + a 1 * b 1 * (1 + θ 1) + a 2 * b 2 * (1 + θ 2) - dot a b =
      θ 0 * (a 0 * b 0) + θ 1 * (a 1 * b 1) + θ 2 * (a 2 * b 2) by simp [dot]; ring]
    refine (abs_add_three _ _ _).trans ?_
    have k : ∀ i, |θ i * (a i * b i)| ≤ m.γ * (|a i| * |b i|) := fun i => by
      rw [abs_mul, abs_mul]; exact mul_le_mul_of_nonneg_right (hθ i) (by positivity)
    simp only [dot, absV]
    linarith [k 0, k 1, k 2]
  refine h1.trans (mul_le_mul_of_nonneg_left ?_ m.γ_nonneg)
  have := (le_abs_self _).trans (abs_dot_le (absV a) (absV b))
  rwa [vlen_absV, vlen_absV] at this

/-- `(z * v).sum(dim=-1)` of two approximations -/
theorem NearV.dot (m : Machine) {E s E2 s2 : ℝ} {v' v w' w : V3} (hE : 1 ≤ E) (hE2 : 1 ≤ E2) (h : NearV E s v' v)
    (h2 : NearV E2 s2 w' w) : |m.dot v' w' - PK.dot v w| ≤ (E * E2 * (1 + m.γ) - 1) * (s * s2) := by
  have hs := h.s_nonneg
  have hs2 := h2.s_nonneg
  have h3 := dot_near m v' w'
  have h4 : |PK.dot v' w' - PK.dot v w| ≤ (E * E2 - 1) * (s * s2) := by
    have e : PK.dot v' w' - PK.dot v w = PK.dot (v' - v) w' + PK.dot v (w' - w) := by simp [PK.dot]; ring
    rw [e]
    refine (abs_add_le _ _).trans ?_
    have a1 := (abs_dot_le (v' - v) w').trans (mul_le_mul h.near h2.len' (vlen_nonneg _) (mul_nonneg (by linarith) hs))
    have a2 := (abs_dot_le v (w' - w)).trans (mul_le_mul h.len h2.near (vlen_nonneg _) hs)
    nlinarith
  have h5 : vlen v' * vlen w' ≤ E * s * (E2 * s2) :=
    mul_le_mul h.len' h2.len' (vlen_nonneg _) (mul_nonneg (by linarith) hs)
  have h6 := mul_le_mul_of_nonneg_left h5 m.γ_nonneg
  have h7 := abs_sub_le (m.dot v' w') (PK.dot v' w') (PK.dot v w)
  refine h7.trans ((add_le_add (h3.trans h6) h4).trans (le_of_eq ?_))
  ring

theorem vlen_sum_le (N : ℕ) (x : ℕ → V3) : vlen (∑ k ∈ Finset.range N, x k) ≤ ∑ k ∈ Finset.range N, vlen (x k) := by
  induction N with
  | zero => simp [vlen]
  | succ N ih =>
    rw [Finset.sum_range_succ, Finset.sum_range_succ]
    exact (vlen_add_le _ _).trans (add_le_add ih le_rfl)

/-- `mask @ x` of approximations -/
theorem maskSumFl_near (m : SumMachine) (N : ℕ) (r : ℕ → ℝ) (hr : ∀ k, 0 ≤ r k) {E : ℝ} {s : ℕ → ℝ} {x' x : ℕ → V3}
    (h : ∀ k < N, NearV E (s k) (x' k) (x k)) :
    NearV (E * (1 + m.Γ N)) (∑ k ∈ Finset.range N, r k * s k)
      (maskSumFl m ((List.range N).map r) ((List.range N).map x')) (∑ k ∈ Finset.range N, r k • x k) := by
  have hΓ := m.Γ_nonneg N
  have hlen : ∀ k ∈ Finset.range N, vlen (r k • x' k) ≤ E * (r k * s k) := fun k hk => by
    rw [vlen_smul, abs_of_nonneg (hr k)]
    have := mul_le_mul_of_nonneg_left (h k (Finset.mem_range.1 hk)).len' (hr k)
    linarith
  have h1 : vlen (maskSumFl m ((List.range N).map r) ((List.range N).map x') - ∑ k ∈ Finset.range N, r k • x' k) ≤
      m.Γ N * (E * ∑ k ∈ Finset.range N, r k * s k) := by
    have hc : ∀ i, |(maskSumFl m ((List.range N).map r) ((List.range N).map x') - ∑ k ∈ Finset.range N, r k • x' k) i| ≤
        (m.Γ N • ∑ k ∈ Finset.range N, absV (r k • x' k)) i := by
      intro i
      have e := m.sumProd_err (List.zip ((List.range N).map r) (((List.range N).map x').map fun x => x i))
      rw [List.map_map, List.zip_map', List.map_map, List.map_map, List.length_map, List.length_range] at e
      rw [Pi.sub_apply, Pi.smul_apply, Finset.sum_apply, Finset.sum_apply, smul_eq_mul]
      unfold maskSumFl
      rw [List.map_map, List.zip_map']
      refine (le_of_eq ?_).trans (e.trans (le_of_eq ?_))
      · rfl
      · rfl
    refine (vlen_le_of_abs hc).trans ?_
    rw [vlen_smul, abs_of_nonneg hΓ]
    refine mul_le_mul_of_nonneg_left ((vlen_sum_le _ _).trans ?_) hΓ
    rw [Finset.mul_sum]
    exact Finset.sum_le_sum fun k hk => by rw [vlen_absV]; exact hlen k hk
  refine ⟨?_, (vlen_sum_le _ _).trans (Finset.sum_le_sum fun k hk => ?_)⟩
  · have h2 : vlen (∑ k ∈ Finset.range N, r k • x' k - ∑ k ∈ Finset.range N, r k • x k) ≤
        (E - 1) * ∑ k ∈ Finset.range N, r k * s k := by
      rw [← Finset.sum_sub_distrib, Finset.mul_sum]
      refine (vlen_sum_le _ _).trans (Finset.sum_le_sum fun k hk => ?_)
      rw [← smul_sub, vlen_smul, abs_of_nonneg (hr k)]
      have := mul_le_mul_of_nonneg_left (h k (Finset.mem_range.1 hk)).near (hr k)
      linarith
    refine (vlen_tri h1 h2).trans (le_of_eq ?_)
    ring
  · rw [vlen_smul, abs_of_nonneg (hr k)]
    exact mul_le_mul_of_nonneg_left (h k (Finset.mem_range.1 hk)).len (hr k)

/-- twice the axial vector of the skew part -/
def axial (M : M3) : V3 := ![M 1 2 - M 2 1, M 2 0 - M 0 2, M 0 1 - M 1 0]

theorem vlen_axial_le (M : M3) : vlen (axial M) ≤ 2 * fro M := by
  have h : vlen (axial M) ^ 2 ≤ (2 * fro M) ^ 2 := by
    have h0 : 0 ≤ ∑ i, ∑ j, M i j ^ 2 := Finset.sum_nonneg fun i _ => Finset.sum_nonneg fun j _ => sq_nonneg _
    rw [vlen_sq, mul_pow, fro, Real.sq_sqrt h0]
    simp only [dotProduct, Fin.sum_univ_three, axial]
    simp
    nlinarith [sq_nonneg (M 1 2 + M 2 1), sq_nonneg (M 2 0 + M 0 2), sq_nonneg (M 0 1 + M 1 0), sq_nonneg (M 0 0), sq_nonneg (M 1 1),
      sq_nonneg (M 2 2), sq_nonneg (M 1 2), sq_nonneg (M 2 1), sq_nonneg (M 2 0), sq_nonneg (M 0 2), sq_nonneg (M 0 1), sq_nonneg (M 1 0)]
  have h2 : 0 ≤ 2 * fro M := by have := fro_nonneg M; linarith
  exact (abs_le_of_sq_le_sq' h h2).2

/-- the rotation part of the gradient of one link -/
theorem tauLinkFl_near (m : Machine) {g l : ℝ} {T' T : M4} (h : Within g l T' T) (G : M4) :
    NearV ((1 + g) * (1 + 2 * m.γ) * (1 + m.u)) (2 * fro (rotPart G)) (tauLinkFl m T' G) (tauLink T G) := by
  have hγ := m.γ_nonneg
  have hg := h.g_nonneg
  have hG := fro_nonneg (rotPart G)
  have hR : IsRot (rotPart T) := h.rigid.1
  set M' : M3 := fun i j => m.dot (rotPart T' i) (rotPart G j) with hM'
  set M : M3 := rotPart T * (rotPart G)ᵀ with hM
  have e1 : tauLinkFl m T' G = fun i => m.rnd (axial M' i) := by
    funext i; fin_cases i <;> rfl
  have e2 : tauLink T G = axial M := rfl
  have hs : Real.sqrt 3 ≤ 2 := by
    rw [show (2 : ℝ) = Real.sqrt (2 ^ 2) by rw [Real.sqrt_sq]; norm_num]
    exact Real.sqrt_le_sqrt (by norm_num)
  have h5 : fro (rotPart T') ≤ 2 * (1 + g) := (fro_sub_bound hR h.rot).trans (by linarith)
  have f1 : fro (M' - rotPart T' * (rotPart G)ᵀ) ≤ m.γ * (2 * (1 + g) * fro (rotPart G)) := by
    have hc : ∀ i j, |(M' - rotPart T' * (rotPart G)ᵀ) i j| ≤ (m.γ • (absM (rotPart T') * absM (rotPart G)ᵀ)) i j := by
      intro i j
      obtain ⟨θ, hθ, e⟩ := m.dot_err (rotPart T' i) (rotPart G j)
      rw [Matrix.sub_apply, show M' i j = _ from e, Matrix.smul_apply, Matrix.mul_apply, Matrix.mul_apply, smul_eq_mul, Finset.mul_sum,
        ← Finset.sum_sub_distrib]
      refine (Finset.abs_sum_le_sum_abs _ _).trans (Finset.sum_le_sum fun k _ => ?_)
      have : rotPart T' i k * rotPart G j k * (1 + θ k) - rotPart T' i k * (rotPart G)ᵀ k j =
          θ k * (rotPart T' i k * (rotPart G)ᵀ k j) := by simp [Matrix.transpose_apply]; ring
      rw [this, abs_mul, abs_mul]
      exact mul_le_mul_of_nonneg_right (hθ k) (by positivity)
    refine (fro_le_of_abs hc).trans ?_
    rw [fro_smul, abs_of_nonneg hγ]
    refine mul_le_mul_of_nonneg_left ((fro_mul_le _ _).trans ?_) hγ
    rw [fro_absM, fro_absM, fro_transpose]
    exact mul_le_mul_of_nonneg_right h5 hG
  have f2 : fro (rotPart T' * (rotPart G)ᵀ - M) ≤ g * fro (rotPart G) := by
    rw [hM, ← Matrix.sub_mul]
    refine (fro_mul_le _ _).trans ?_
    rw [fro_transpose]
    exact mul_le_mul_of_nonneg_right h.rot hG
  have f3 : fro (M' - M) ≤ ((1 + g) * (1 + 2 * m.γ) - 1) * fro (rotPart G) := by
    have := fro_add_le (M' - rotPart T' * (rotPart G)ᵀ) (rotPart T' * (rotPart G)ᵀ - M)
    rw [sub_add_sub_cancel] at this
    nlinarith
  have e3 : axial M' - axial M = axial (M' - M) := by
    funext i; fin_cases i <;> simp [axial] <;> ring
  have hn : NearV ((1 + g) * (1 + 2 * m.γ)) (2 * fro (rotPart G)) (axial M') (axial M) := by
    refine ⟨?_, ?_⟩
    · rw [e3]
      refine (vlen_axial_le _).trans ?_
      linarith
    · refine (vlen_axial_le _).trans (le_of_eq ?_)
      rw [hM, fro_rot_mul hR, fro_transpose]
  rw [e1, e2]
  exact hn.rnd m

theorem dot_split (z o : V3) (r : ℕ → ℝ) (x y w : ℕ → V3) (N : ℕ) :
    dot z (∑ k ∈ Finset.range N, r k • x k + ∑ k ∈ Finset.range N, r k • y k - cross o (∑ k ∈ Finset.range N, r k • w k)) =
      ∑ k ∈ Finset.range N, r k * dot z (x k + y k - cross o (w k)) := by
  induction N with
  | zero => simp [dot, cross]
  | succ N ih =>
    simp only [Finset.sum_range_succ]
    rw [← ih]
    simp [dot, cross]
    ring

theorem dot_smul_sum (z : V3) (r : ℕ → ℝ) (w : ℕ → V3) (N : ℕ) :
    dot z (∑ k ∈ Finset.range N, r k • w k) = ∑ k ∈ Finset.range N, r k * dot z (w k) := by
  induction N with
  | zero => simp [dot]
  | succ N ih =>
    simp only [Finset.sum_range_succ]
    rw [← ih]
    simp [dot]
    ring

/-- the gradient of one joint, computed and exact -/
theorem gradFl_near (m : SumMachine) {g τ : ℝ} (N : ℕ) (r : ℕ → ℝ) (hr : ∀ k, 0 ≤ r k) {len : ℕ → ℝ} {T' T : ℕ → M4} (G : ℕ → M4)
    (h : ∀ k < N, Within g (len k) (T' k) (T k)) {lo : ℝ} {D' D : M4} (hD : Within g lo D' D) {a' a : V3} (hun : IsUnitV a)
    (ha : ∀ i, |a' i - a i| ≤ τ) :
    let z' := axisFl m.toMachine D' a'
    let z := rotPart D *ᵥ a
    let row := (List.range N).map r
    let sTau := maskSumFl m row ((List.range N).map fun k => tauLinkFl m.toMachine (T' k) (G k))
    let sT := maskSumFl m row ((List.range N).map fun k => posPart (G k))
    let sC := maskSumFl m row ((List.range N).map fun k => crossFl m.toMachine (posPart (T' k)) (posPart (G k)))
    let co := crossFl m.toMachine (posPart D') sT
    let E := (1 + g) ^ 2 * (1 + 2 * m.γ) ^ 3 * (1 + m.u) ^ 3 * (1 + m.Γ N) * (1 + 2 * τ)
    |m.dot z' (fun i => m.rnd (m.rnd (sTau i + sC i) - co i)) -
        ∑ k ∈ Finset.range N, r k * dot z (tauLink (T k) (G k) + cross (posPart (T k)) (posPart (G k)) - cross (posPart D) (posPart (G k)))|
      ≤ (E - 1) * ∑ k ∈ Finset.range N, r k * (2 * fro (rotPart (G k)) + (len k + lo) * vlen (posPart (G k))) ∧
    |m.dot z' sT - ∑ k ∈ Finset.range N, r k * dot z (posPart (G k))| ≤ (E - 1) * ∑ k ∈ Finset.range N, r k * vlen (posPart (G k)) := by
  intro z' z row sTau sT sC co E
  have hγ := m.γ_nonneg
  have hu := m.u_nonneg
  have hΓ := m.Γ_nonneg N
  have hg := hD.g_nonneg
  have hτ : 0 ≤ τ := (abs_nonneg _).trans (ha 0)
  obtain ⟨hz1, hz2⟩ := axisFl_within m.toMachine hD hun ha
  have hz : NearV ((1 + g) * (1 + 2 * τ) * (1 + 2 * m.γ)) 1 z' z := ⟨by rw [mul_one]; exact hz1, hz2.le⟩
  have o1 : NearV (1 + g) lo (posPart D') (posPart D) := ⟨hD.pos.trans (le_of_eq (by ring)), hD.len⟩
  have n1 := maskSumFl_near m N r hr fun k hk => tauLinkFl_near m.toMachine (h k hk) (G k)
  have n2 := maskSumFl_near m N r hr (E := 1) fun k _ => nearV_refl (posPart (G k))
  have n3 := maskSumFl_near m N r hr (E := (1 + g) * 1 * (1 + 2 * m.γ)) fun k hk =>
    NearV.cross m.toMachine (by linarith) le_rfl
      (⟨(h k hk).pos.trans (le_of_eq (by ring)), (h k hk).len⟩ : NearV (1 + g) (len k) (posPart (T' k)) (posPart (T k)))
      (nearV_refl (posPart (G k)))
  have n4 := NearV.cross m.toMachine (by linarith) (by linarith) o1 n2
  have p1 : 1 ≤ 1 + m.u := by linarith
  have p2 : 1 ≤ 1 + m.Γ N := by linarith
  have p3 : 1 ≤ 1 + 2 * m.γ := by linarith
  have p4 : 1 ≤ 1 + g := by linarith
  have p5 : 1 ≤ 1 + 2 * τ := by linarith
  set U := 1 + m.u
  set V := 1 + m.Γ N
  set W := 1 + 2 * m.γ
  set g1 := 1 + g
  set t1 := 1 + 2 * τ
  have q1 : 1 ≤ g1 * W * U * V := one_le_mul_of_one_le_of_one_le (one_le_mul_of_one_le_of_one_le (one_le_mul_of_one_le_of_one_le p4 p3) p1) p2
  have q0 : 0 ≤ g1 * W * V := by positivity
  have n3' : NearV (g1 * W * U * V) _ sC _ := n3.mono (by nlinarith)
  have n5 := ((n1.add n3').rnd m.toMachine)
  have n4' : NearV (g1 * W * U * V * U) _ co _ := n4.mono (by
    have : g1 * W * V ≤ g1 * W * V * (U * U) := le_mul_of_one_le_right q0 (one_le_mul_of_one_le_of_one_le p1 p1)
    linarith)
  have n6 := (n5.sub n4').rnd m.toMachine
  have hEz : 1 ≤ g1 * t1 * W := one_le_mul_of_one_le_of_one_le (one_le_mul_of_one_le_of_one_le p4 p5) p3
  have n7 := hz.dot m.toMachine hEz (one_le_mul_of_one_le_of_one_le (one_le_mul_of_one_le_of_one_le q1 p1) p1) n6
  have n8 := hz.dot m.toMachine hEz (by linarith) n2
  have hle : 1 + m.γ ≤ W := by show 1 + m.γ ≤ 1 + 2 * m.γ; linarith
  have hw7 : 0 ≤ ∑ k ∈ Finset.range N, r k * (2 * fro (rotPart (G k)) + (len k + lo) * vlen (posPart (G k))) := by
    refine Finset.sum_nonneg fun k hk => mul_nonneg (hr k) ?_
    have a1 := fro_nonneg (rotPart (G k))
    have a2 := vlen_nonneg (posPart (G k))
    have a3 := (h k (Finset.mem_range.1 hk)).l_nonneg
    have a4 := hD.l_nonneg
    positivity
  constructor
  · have e1 : ∑ k ∈ Finset.range N, r k * (2 * fro (rotPart (G k))) + ∑ k ∈ Finset.range N, r k * (len k * vlen (posPart (G k))) +
        lo * ∑ k ∈ Finset.range N, r k * vlen (posPart (G k)) =
        ∑ k ∈ Finset.range N, r k * (2 * fro (rotPart (G k)) + (len k + lo) * vlen (posPart (G k))) := by
      rw [Finset.mul_sum, ← Finset.sum_add_distrib, ← Finset.sum_add_distrib]
      exact Finset.sum_congr rfl fun k _ => by ring
    have e2 : dot z (∑ k ∈ Finset.range N, r k • tauLink (T k) (G k) + ∑ k ∈ Finset.range N, r k • cross (posPart (T k)) (posPart (G k)) -
        cross (posPart D) (∑ k ∈ Finset.range N, r k • posPart (G k))) =
        ∑ k ∈ Finset.range N, r k * dot z (tauLink (T k) (G k) + cross (posPart (T k)) (posPart (G k)) - cross (posPart D) (posPart (G k))) := by
      exact dot_split z (posPart D) r _ _ _ N
    rw [e1, e2, one_mul] at n7
    refine n7.trans (mul_le_mul_of_nonneg_right (sub_le_sub_right ?_ 1) hw7)
    refine (mul_le_mul_of_nonneg_left hle (by positivity)).trans (le_of_eq ?_)
    show _ = g1 ^ 2 * W ^ 3 * U ^ 3 * V * t1
    ring
  · rw [dot_smul_sum, one_mul, one_mul] at n8
    have hw8 : 0 ≤ ∑ k ∈ Finset.range N, r k * vlen (posPart (G k)) :=
      Finset.sum_nonneg fun k _ => mul_nonneg (hr k) (vlen_nonneg _)
    refine n8.trans (mul_le_mul_of_nonneg_right (sub_le_sub_right ?_ 1) hw8)
    refine (mul_le_mul_of_nonneg_left hle (by positivity)).trans ?_
    show _ ≤ g1 ^ 2 * W ^ 3 * U ^ 3 * V * t1
    have k1 : 1 ≤ g1 * W * U ^ 3 :=
      one_le_mul_of_one_le_of_one_le (one_le_mul_of_one_le_of_one_le p4 p3) (one_le_pow₀ p1)
    have k2 : 0 ≤ g1 * t1 * W * V * W := by positivity
    have := le_mul_of_one_le_right k2 k1
    refine (le_of_eq ?_).trans (this.trans (le_of_eq ?_)) <;> ring

end PK
