import Verif.Lemmas.T3Round
import Verif.Props.FloatJac
import Verif.Props.FloatRot
import Verif.Lemmas.Euler

/-!
# C132: rounding errors of pipelines of transforms
-/

namespace PK
open Spec Matrix

/-- what a stand-in says about the row used at index `i` of a larger batch -/
theorem Spec.Stands.pick {F l : ℝ} {t : T3} {n : ℕ} {M : ℕ → M4} (h : Stands F l t n M) {i : ℕ} {N : M4} (hp : Spec.pick t.mats i = some N) :
    Within (F - 1) l N (M i) := by
  unfold Spec.pick at hp
  split at hp
  case isTrue h1 =>
    obtain ⟨h0, rfl⟩ := List.getElem?_eq_some_iff.1 hp
    rw [h.one (h.rows ▸ h1) i]
    exact h.near 0 h0
  case isFalse h1 =>
    obtain ⟨h0, rfl⟩ := List.getElem?_eq_some_iff.1 hp
    exact h.near i h0

theorem Spec.Stands.mono {F F' l l' : ℝ} {t : T3} {n : ℕ} {M : ℕ → M4} (h : Stands F l t n M) (hF : F ≤ F') (hl : l ≤ l') : Stands F' l' t n M :=
  { h with near := fun i hi => (h.near i hi).mono (by linarith) hl }

theorem inverseFl_get (m : Machine) (t : T3) (hs : t.kind ≠ .scale) {i : ℕ} (h : i < (t.inverseFl m).mats.length) :
    ∃ h' : i < t.mats.length, (t.inverseFl m).mats[i] =
      match t.kind with
      | .translate => invertTranslate t.mats[i]
      | .rotate => t.mats[i]ᵀ
      | _ => invertMatrixFl m t.mats[i] := by
  obtain ⟨k, ms, a, b, c, d⟩ := t
  cases k
  · exact ⟨by simpa [T3.inverseFl, T3.matrixInverseFl] using h, by simp [T3.inverseFl, T3.matrixInverseFl]⟩
  · exact ⟨by simpa [T3.inverseFl, T3.matrixInverseFl] using h, by simp [T3.inverseFl, T3.matrixInverseFl]⟩
  · exact absurd rfl hs
  · exact ⟨by simpa [T3.inverseFl, T3.matrixInverseFl] using h, by simp [T3.inverseFl, T3.matrixInverseFl]⟩

theorem inverseFl_length (m : Machine) (t : T3) : (t.inverseFl m).mats.length = t.mats.length := by
  obtain ⟨k, ms, a, b, c, d⟩ := t
  cases k <;> simp [T3.inverseFl, T3.matrixInverseFl]

/-- **C132**: the inverse of a transform stands for the inverse matrices. -/
theorem C132_inverse (m : Machine) {F l : ℝ} {t : T3} {n : ℕ} {M : ℕ → M4} (h : Stands F l t n M) :
    Stands (F ^ 2 * (1 + 3 * m.γ)) l (t.inverseFl m) n (fun i => (M i)⁻¹) := by
  have hγ := m.γ_nonneg
  refine ⟨by rw [inverseFl_length, h.rows], fun h1 i => by rw [h.one h1 i], fun i hi => ?_, by rintro ⟨⟩, by rintro ⟨⟩, by rintro ⟨⟩,
    by rintro ⟨⟩⟩
  obtain ⟨hi', e⟩ := inverseFl_get m t h.not_scale hi
  have hw := h.near i hi'
  have hF : 1 ≤ F := by linarith [hw.g_nonneg]
  have hle : F - 1 ≤ F ^ 2 * (1 + 3 * m.γ) - 1 := by nlinarith [mul_nonneg (sq_nonneg F) hγ]
  rw [e]
  have hn : i < n := h.rows ▸ hi'
  cases hk : t.kind with
  | plain => exact (hw.inv m).mono (le_of_eq (by ring)) le_rfl
  | translate => exact (hw.invTranslate (h.translate hk i hn)).mono hle le_rfl
  | scale => exact absurd hk h.not_scale
  | rotate => exact (hw.invRotate (h.rotate' hk i hn) (h.rotate hk _ (List.getElem_mem _))).mono hle le_rfl

/-- **C132**: a composition stands for the products, row by row. -/
theorem C132_compose (m : Machine) {F F' l l' : ℝ} {t t' : T3} {n n' : ℕ} {M M' : ℕ → M4} (h : Stands F l t n M) (h' : Stands F' l' t' n' M')
    (hc : Compat n n') : ∃ t'', t.composeFl m [t'] = .ok t'' ∧
      Stands (F * F' * (1 + 3 * m.γ)) (l + l') t'' (bsize n n') (fun i => M i * M' i) := by
  obtain ⟨c, e⟩ := bzip_compat_ok m.mul (a := t.mats) (b := t'.mats) (by rw [h.rows, h'.rows]; exact hc)
  obtain ⟨hl, hg⟩ := bzip_ok_get e
  rw [h.rows, h'.rows] at hl
  refine ⟨⟨.plain, c, t.mdtype, t.mdevice, t.mdtype, t.mdevice⟩, by simp [T3.composeFl, e, ok_bind, pure_ok], hl, fun h1 i => ?_,
    fun i hi => ?_, by rintro ⟨⟩, by rintro ⟨⟩, by rintro ⟨⟩, by rintro ⟨⟩⟩
  · have : n = 1 ∧ n' = 1 := by
      unfold bsize at h1
      unfold Compat at hc
      split at h1 <;> omega
    rw [h.one this.1 i, h'.one this.2 i]
  · obtain ⟨x, y, hx, hy, e2⟩ := hg i hi
    rw [show (T3.mats ⟨.plain, c, t.mdtype, t.mdevice, t.mdtype, t.mdevice⟩)[i] = _ from e2]
    exact ((h.pick hx).mul m (h'.pick hy)).mono (le_of_eq (by ring)) le_rfl

/-- **C132**: every expression in transforms stands for the expression in exact matrices; errors of leaves and roundings enter with
known multiplicities, whatever the batch sizes.  Expressions whose sizes do not fit raise `ValueError`. -/
theorem C132_pipeline (m : Machine) {δ : ℝ} {l : ℕ → ℝ} {t : ℕ → T3} {n : ℕ → ℕ} {M : ℕ → ℕ → M4}
    (h : ∀ k, Stands (1 + δ) (l k) (t k) (n k) (M k)) (e : Pipe) :
    (∀ N, e.size n = some N → ∃ t', e.evalFl m t = .ok t' ∧
      Stands ((1 + δ) ^ e.leaves * (1 + 3 * m.γ) ^ e.rounds) (e.reach l) t' N (e.value M)) ∧
    (e.size n = none → e.evalFl m t = .error .valueError) := by
  induction e with
  | leaf k =>
    refine ⟨fun N hN => ⟨t k, rfl, ?_⟩, fun hN => by simp [Pipe.size] at hN⟩
    obtain rfl : n k = N := by simpa [Pipe.size] using hN
    have := h k
    simpa [Pipe.leaves, Pipe.rounds, Pipe.reach, Pipe.value] using this
  | compose a b iha ihb =>
    cases ha : a.size n with
    | none =>
      refine ⟨fun N hN => by simp [Pipe.size, ha] at hN, fun _ => ?_⟩
      simp [Pipe.evalFl, iha.2 ha, error_bind]
    | some x =>
      obtain ⟨ta, ea, sa⟩ := iha.1 x ha
      cases hb : b.size n with
      | none =>
        refine ⟨fun N hN => by simp [Pipe.size, ha, hb] at hN, fun _ => ?_⟩
        simp [Pipe.evalFl, ea, ihb.2 hb, error_bind, ok_bind]
      | some y =>
        obtain ⟨tb, eb, sb⟩ := ihb.1 y hb
        by_cases hc : Compat x y
        · refine ⟨fun N hN => ?_, fun hN => by simp [Pipe.size, ha, hb, hc] at hN⟩
          obtain rfl : bsize x y = N := by simpa [Pipe.size, ha, hb, hc] using hN
          obtain ⟨t', e', s'⟩ := C132_compose m sa sb hc
          refine ⟨t', by simp [Pipe.evalFl, ea, eb, ok_bind, e'], s'.mono (le_of_eq ?_) le_rfl⟩
          simp only [Pipe.leaves, Pipe.rounds]
          ring
        · refine ⟨fun N hN => by simp [Pipe.size, ha, hb, hc] at hN, fun _ => ?_⟩
          have := bzip_error m.mul (a := ta.mats) (b := tb.mats) (by rw [sa.rows, sb.rows]; exact hc)
          simp [Pipe.evalFl, ea, eb, ok_bind, T3.composeFl, this, error_bind]
  | inverse a ih =>
    refine ⟨fun N hN => ?_, fun hN => by simp [Pipe.evalFl, ih.2 hN, error_bind]⟩
    obtain ⟨t', e', s'⟩ := ih.1 N hN
    refine ⟨t'.inverseFl m, by simp [Pipe.evalFl, e', ok_bind, pure_ok], (C132_inverse m s').mono (le_of_eq ?_) le_rfl⟩
    simp only [Pipe.leaves, Pipe.rounds]
    ring

/-- **C132**: a transform composed with its computed inverse, in either order, is the identity up to rounding, in every row. -/
theorem C132_cancels (m : Machine) {F l : ℝ} {t : T3} {n : ℕ} {M : ℕ → M4} (h : Stands F l t n M) :
    ∃ a b, t.composeFl m [t.inverseFl m] = .ok a ∧ (t.inverseFl m).composeFl m [t] = .ok b ∧ a.mats.length = n ∧ b.mats.length = n ∧
      ∀ T, T ∈ a.mats ∨ T ∈ b.mats → Within (F ^ 3 * (1 + 3 * m.γ) ^ 2 - 1) (2 * l) T 1 := by
  obtain ⟨a, ea, sa⟩ := C132_compose m h (C132_inverse m h) (.inl rfl)
  obtain ⟨b, eb, sb⟩ := C132_compose m (C132_inverse m h) h (.inl rfl)
  have hb : bsize n n = n := by unfold bsize; split <;> rfl
  have hM : ∀ i < n, M i * (M i)⁻¹ = 1 ∧ (M i)⁻¹ * M i = 1 := fun i hi => by
    have hr := (h.near i (h.rows ▸ hi)).rigid
    have hR : IsRot (rotPart (M i)) := hr.1
    have h1 : M i * (M i)⁻¹ = 1 := by
      rw [rigid_inv hr]
      conv_lhs => lhs; rw [eq_mkHom_of_affine hr.2]
      rw [mkHom_mul, isRot_mult hR, Matrix.mulVec_neg, Matrix.mulVec_mulVec, isRot_mult hR, Matrix.one_mulVec, neg_add_cancel, mkHom_one]
    exact ⟨h1, mul_eq_one_comm.1 h1⟩
  refine ⟨a, b, ea, eb, sa.rows.trans hb, sb.rows.trans hb, fun T hT => ?_⟩
  rcases hT with hT | hT
  · obtain ⟨i, hi, rfl⟩ := List.getElem_of_mem hT
    have := sa.near i hi
    rw [(hM i (by rw [sa.rows, hb] at hi; exact hi)).1] at this
    exact this.mono (le_of_eq (by ring)) (le_of_eq (by ring))
  · obtain ⟨i, hi, rfl⟩ := List.getElem_of_mem hT
    have := sb.near i hi
    rw [(hM i (by rw [sb.rows, hb] at hi; exact hi)).2] at this
    exact this.mono (le_of_eq (by ring)) (le_of_eq (by ring))

/-- factors close to 1 -/
theorem pipe_linear {δ γ : ℝ} (hδ : 0 ≤ δ) (hγ : 0 ≤ γ) (a b : ℕ) (h : a * δ + 3 * b * γ ≤ 1) :
    (1 + δ) ^ a * (1 + 3 * γ) ^ b - 1 ≤ 2 * (a * δ + 3 * b * γ) := by
  have h1 : (1 + δ) ^ a ≤ Real.exp (a * δ) := by
    rw [Real.exp_nat_mul]; exact pow_le_pow_left₀ (by positivity) (by linarith [Real.add_one_le_exp δ]) a
  have h2 : (1 + 3 * γ) ^ b ≤ Real.exp (b * (3 * γ)) := by
    rw [Real.exp_nat_mul]; exact pow_le_pow_left₀ (by positivity) (by linarith [Real.add_one_le_exp (3 * γ)]) b
  have h3 := mul_le_mul h1 h2 (by positivity) (Real.exp_pos _).le
  rw [← Real.exp_add] at h3
  have h0 : 0 ≤ a * δ + b * (3 * γ) := by positivity
  have h4 := Real.abs_exp_sub_one_le (x := a * δ + b * (3 * γ)) (by rw [abs_of_nonneg h0]; linarith)
  rw [abs_of_nonneg h0] at h4
  have := (abs_le.1 h4).2
  linarith

/-- **C132**: the errors grow linearly. -/
theorem C132_linear (m : Machine) {δ : ℝ} (hδ : 0 ≤ δ) {l : ℕ → ℝ} {t : ℕ → T3} {n : ℕ → ℕ} {M : ℕ → ℕ → M4}
    (h : ∀ k, Stands (1 + δ) (l k) (t k) (n k) (M k)) (e : Pipe) {N : ℕ} (hN : e.size n = some N)
    (h1 : e.leaves * δ + 3 * e.rounds * m.γ ≤ 1) : ∃ t', e.evalFl m t = .ok t' ∧ t'.mats.length = N ∧
      ∀ i T, t'.mats[i]? = some T → Within (2 * (e.leaves * δ + 3 * e.rounds * m.γ)) (e.reach l) T (e.value M i) := by
  obtain ⟨t', e', s'⟩ := (C132_pipeline m h e).1 N hN
  refine ⟨t', e', s'.rows, fun i T hT => ?_⟩
  obtain ⟨hi, rfl⟩ := List.getElem?_eq_some_iff.1 hT
  exact (s'.near i hi).mono (pipe_linear hδ m.γ_nonneg _ _ h1) le_rfl

/-! ## points and normals -/

/-- **C132**: a batch of clouds of points through a transform; `X' ` are computed points that stand for exact ones, so that the
statement can be used repeatedly. -/
theorem C132_points (m : PointMachine) {eps : Option ℝ} (he : ∀ e, eps = some e → e ≤ 1) {F l Q s : ℝ} (hQ : 1 ≤ Q) {t : T3} {n : ℕ}
    {M : ℕ → M4} (h : Stands F l t n M) {P : ℕ} (X' : List (Matrix (Fin P) (Fin 3) ℝ)) (hc : Compat X'.length n) :
    ∃ Y, t.transformPointsFl m eps (.batch X') = .ok (.batch Y) ∧ Y.length = bsize X'.length n ∧
      ∀ i y x', Y[i]? = some y → Spec.pick X' i = some x' → ∀ p x, PointNear Q s (x' p) x →
        PointNear (F * (1 + 3 * m.γ) * (1 + m.u) * Q) (s + l) (y p) (act (M i) x) := by
  obtain ⟨c, e⟩ := bzip_compat_ok (applyPointsFl m eps) (a := X') (b := t.mats) (by rw [h.rows]; exact hc)
  obtain ⟨hl, hg⟩ := bzip_ok_get e
  rw [h.rows] at hl
  refine ⟨c, by simp [T3.transformPointsFl, e, ok_bind, pure_ok, reshapeBack], hl, fun i y x' hy hx p x hn => ?_⟩
  obtain ⟨hi, rfl⟩ := List.getElem?_eq_some_iff.1 hy
  obtain ⟨a, b, ha, hb, e2⟩ := hg i hi
  rw [ha] at hx
  cases hx
  rw [e2]
  exact applyPointsFl_near m he hQ (h.pick hb) hn

/-- **C132**: one cloud through a transform with one row gives one cloud; through a batch, one per row. -/
theorem C132_points_flat (m : PointMachine) {eps : Option ℝ} (he : ∀ e, eps = some e → e ≤ 1) {F l Q s : ℝ} (hQ : 1 ≤ Q) {t : T3} {n : ℕ}
    {M : ℕ → M4} (h : Stands F l t n M) {P : ℕ} (x' : Matrix (Fin P) (Fin 3) ℝ) :
    ∃ Y, t.transformPointsFl m eps (.flat x') = .ok (if n = 1 then .flat (Y 0) else .batch ((List.range n).map Y)) ∧
      ∀ i < n, ∀ p x, PointNear Q s (x' p) x → PointNear (F * (1 + 3 * m.γ) * (1 + m.u) * Q) (s + l) (Y i p) (act (M i) x) := by
  refine ⟨fun i => applyPointsFl m eps x' (t.mats.getD i 1), ?_, fun i hi p x hx => ?_⟩
  · simp only [T3.transformPointsFl, bzip_left, ok_bind, pure_ok]
    split
    case isTrue h1 =>
      obtain ⟨N, hN⟩ := List.length_eq_one_iff.1 (h.rows.trans h1)
      simp [hN, reshapeBack]
    case isFalse h1 =>
      have hl : t.mats.map (applyPointsFl m eps x') = (List.range n).map fun i => applyPointsFl m eps x' (t.mats.getD i 1) := by
        apply List.ext_getElem (by simp [h.rows])
        intro i a b
        have hi : i < t.mats.length := by simpa using a
        simp [hi]
      rw [hl]
      have : ((List.range n).map fun i => applyPointsFl m eps x' (t.mats.getD i 1)).length ≠ 1 := by simpa using h1
      revert this
      generalize ((List.range n).map fun i => applyPointsFl m eps x' (t.mats.getD i 1)) = L
      intro hL
      match L, hL with
      | [], _ => rfl
      | [_], hL => simp at hL
      | _ :: _ :: _, _ => rfl
  · have hi' : i < t.mats.length := h.rows ▸ hi
    have := applyPointsFl_near m he hQ (h.near i hi') hx
    simpa [hi'] using this

theorem act_inv {T : M4} (h : IsRigid T) (x : V3) : act T⁻¹ (act T x) = x := by
  have hR : IsRot (rotPart T) := h.1
  rw [act_eq, act_eq, rigid_inv h, rotPart_mkHom, posPart_mkHom, Matrix.mulVec_add, Matrix.mulVec_mulVec, isRot_tmul hR,
    Matrix.one_mulVec, add_neg_cancel_right]

theorem act_mul {A B : M4} (hB : IsAffine B) (x : V3) : act (A * B) x = act A (act B x) := by
  rw [act_eq, act_eq, act_eq, rotPart_mul hB, posPart_mul hB, Matrix.mulVec_add, Matrix.mulVec_mulVec]
  abel

/-- **C132**: points taken through a transform and back through its computed inverse return to where they were, up to a multiple of
the roundoff of the distances involved. -/
theorem C132_round_trip (m : PointMachine) {eps : Option ℝ} (he : ∀ e, eps = some e → e ≤ 1) {F l s : ℝ} {t : T3} {n : ℕ}
    {M : ℕ → M4} (h : Stands F l t n M) {P : ℕ} (X : List (Matrix (Fin P) (Fin 3) ℝ)) (hc : X.length = n)
    (hs : ∀ x ∈ X, ∀ p, vlen (x p) ≤ s) :
    ∃ Y Z : List (Matrix (Fin P) (Fin 3) ℝ), t.transformPointsFl m eps (.batch X) = .ok (.batch Y) ∧ (t.inverseFl m.toMachine).transformPointsFl m eps (.batch Y) = .ok (.batch Z) ∧
      Z.length = X.length ∧ ∀ (i : ℕ) z x, Z[i]? = some z → X[i]? = some x → ∀ p,
        vlen (z p - x p) ≤ (F ^ 3 * (1 + 3 * m.γ) ^ 3 * (1 + m.u) ^ 2 - 1) * (s + 2 * l) := by
  have hγ := m.γ_nonneg; have hu := m.u_nonneg
  have hp : ∀ {L : List (Matrix (Fin P) (Fin 3) ℝ)} {i x}, L[i]? = some x → L.length = n → Spec.pick L i = some x := by
    intro L i x hx hL
    unfold Spec.pick
    split
    case isTrue h1 =>
      obtain ⟨h0, -⟩ := List.getElem?_eq_some_iff.1 hx
      have : i = 0 := by omega
      rw [← this]; exact hx
    case isFalse => exact hx
  obtain ⟨Y, e1, l1, h1⟩ := C132_points m he (s := s) (Q := 1) le_rfl h X (.inl hc)
  have l1' : Y.length = n := by
    rw [l1, hc]; unfold bsize; split <;> rfl
  have hY : ∀ i (hi : i < n), 1 ≤ F := fun i hi => by
    have := (h.near i (h.rows ▸ hi)).g_nonneg; linarith
  by_cases hn : n = 0
  · obtain ⟨Z, e2, l2, -⟩ := C132_points m he (s := s) (Q := 1) le_rfl (C132_inverse m.toMachine h) Y (.inl l1')
    refine ⟨Y, Z, e1, e2, by rw [l2, l1', hc]; unfold bsize; split <;> rfl, fun i z x _ hx => ?_⟩
    obtain ⟨h0, -⟩ := List.getElem?_eq_some_iff.1 hx
    omega
  have hF := hY 0 (by omega)
  have hQ : 1 ≤ F * (1 + 3 * m.γ) * (1 + m.u) * 1 := by
    have a : 1 ≤ F * (1 + 3 * m.γ) := by nlinarith
    nlinarith
  obtain ⟨Z, e2, l2, h2⟩ := C132_points m he (s := s + l) hQ (C132_inverse m.toMachine h) Y (.inl l1')
  have l2' : Z.length = n := by
    rw [l2, l1']; unfold bsize; split <;> rfl
  refine ⟨Y, Z, e1, e2, by rw [l2', hc], fun i z x hz hx p => ?_⟩
  obtain ⟨hi, -⟩ := List.getElem?_eq_some_iff.1 hz
  have hiY : i < Y.length := by omega
  have a1 := h1 i Y[i] x (List.getElem?_eq_getElem hiY) (hp hx hc) p (x p) ⟨hs x (List.mem_of_getElem? hx) p, by simp [vlen]⟩
  have a2 := (h2 i z Y[i] hz (hp (List.getElem?_eq_getElem hiY) l1') p _ a1).near
  rw [act_inv (h.near i (h.rows ▸ (by omega))).rigid] at a2
  refine a2.trans (le_of_eq ?_)
  ring

/-- **C132**: transforming by a composition, or by its factors one after the other: both are the same up to rounding. -/
theorem C132_sequential (m : PointMachine) {eps : Option ℝ} (he : ∀ e, eps = some e → e ≤ 1) {F F' l l' s : ℝ} {t t' : T3}
    {M M' : ℕ → M4} (h : Stands F l t 1 M) (h' : Stands F' l' t' 1 M') {P : ℕ} (x : Matrix (Fin P) (Fin 3) ℝ) (hs : ∀ p, vlen (x p) ≤ s) :
    ∃ c y z w, t.composeFl m.toMachine [t'] = .ok c ∧ c.transformPointsFl m eps (.flat x) = .ok (.flat y) ∧
      t'.transformPointsFl m eps (.flat x) = .ok (.flat z) ∧ t.transformPointsFl m eps (.flat z) = .ok (.flat w) ∧
      ∀ p, vlen (y p - w p) ≤ 2 * (F * F' * (1 + 3 * m.γ) ^ 2 * (1 + m.u) ^ 2 - 1) * (s + l + l') := by
  have hγ := m.γ_nonneg; have hu := m.u_nonneg
  obtain ⟨c, ec, hc⟩ := C132_compose m.toMachine h h' (.inl rfl)
  have hx : ∀ p, PointNear 1 s (x p) (x p) := fun p => ⟨hs p, by simp [vlen]⟩
  have wF := h.near 0 (by rw [h.rows]; exact one_pos)
  have wF' := h'.near 0 (by rw [h'.rows]; exact one_pos)
  have hF : 1 ≤ F := by linarith [wF.g_nonneg]
  have hF' : 1 ≤ F' := by linarith [wF'.g_nonneg]
  obtain ⟨Y, ey, hy⟩ := C132_points_flat m he (s := s) (Q := 1) le_rfl hc x
  obtain ⟨Z, ez, hz⟩ := C132_points_flat m he (s := s) (Q := 1) le_rfl h' x
  have hQ : 1 ≤ F' * (1 + 3 * m.γ) * (1 + m.u) * 1 := by
    have a : 1 ≤ F' * (1 + 3 * m.γ) := by nlinarith
    nlinarith
  obtain ⟨W, ew, hw⟩ := C132_points_flat m he (s := s + l') hQ h (Z 0)
  refine ⟨c, Y 0, Z 0, W 0, ec, by simpa [bsize] using ey, by simpa using ez, by simpa using ew, fun p => ?_⟩
  have a := (hy 0 (by simp [bsize]) p _ (hx p)).near
  have b := (hw 0 one_pos p _ (hz 0 one_pos p _ (hx p))).near
  rw [act_mul wF'.rigid.2] at a
  have e : Y 0 p - W 0 p = (Y 0 p - act (M 0) (act (M' 0) (x p))) + -(W 0 p - act (M 0) (act (M' 0) (x p))) := by abel
  rw [e]
  refine (vlen_add_le _ _).trans ?_
  rw [vlen_neg]
  have hs0 : 0 ≤ s + l + l' := by
    have := wF.l_nonneg; have := wF'.l_nonneg
    rcases P with _ | P
    · exact p.elim0
    · have := (vlen_nonneg _).trans (hs p); linarith
  have k : F * F' * (1 + 3 * m.γ) * (1 + 3 * m.γ) * (1 + m.u) * 1 - 1 ≤ F * F' * (1 + 3 * m.γ) ^ 2 * (1 + m.u) ^ 2 - 1 := by
    have : 0 ≤ F * F' * (1 + 3 * m.γ) ^ 2 * (1 + m.u) := by positivity
    nlinarith
  have a' := mul_le_mul_of_nonneg_right k hs0
  have e1 : (F * F' * (1 + 3 * m.γ) * (1 + 3 * m.γ) * (1 + m.u) * 1 - 1) * (s + (l + l')) =
    (F * F' * (1 + 3 * m.γ) * (1 + 3 * m.γ) * (1 + m.u) * 1 - 1) * (s + l + l') := by ring
  have e2 : (F * (1 + 3 * m.γ) * (1 + m.u) * (F' * (1 + 3 * m.γ) * (1 + m.u) * 1) - 1) * (s + l' + l) =
    (F * F' * (1 + 3 * m.γ) ^ 2 * (1 + m.u) ^ 2 - 1) * (s + l + l') := by ring
  rw [e1] at a
  rw [e2] at b
  linarith

/-- **C132**: normals are rotated. -/
theorem C132_normals (m : Machine) {F l Q s : ℝ} (hQ : 1 ≤ Q) {t : T3} {n : ℕ}
    {M : ℕ → M4} (h : Stands F l t n M) {P : ℕ} (X' : List (Matrix (Fin P) (Fin 3) ℝ)) (hc : Compat X'.length n) :
    ∃ Y, t.transformNormalsFl m (.batch X') = .ok (.batch Y) ∧ Y.length = bsize X'.length n ∧
      ∀ i y x', Y[i]? = some y → Spec.pick X' i = some x' → ∀ p x, PointNear Q s (x' p) x →
        PointNear (F ^ 2 * (1 + 3 * m.γ) ^ 2 * Q) s (y p) (actDir (M i) x) := by
  have hi := C132_inverse m h
  obtain ⟨c, e⟩ := bzip_compat_ok (applyNormalsFl m) (a := X') (b := (t.inverseFl m).mats) (by rw [hi.rows]; exact hc)
  obtain ⟨hl, hg⟩ := bzip_ok_get e
  rw [hi.rows] at hl
  refine ⟨c, by simp [T3.transformNormalsFl, e, ok_bind, pure_ok, reshapeBack], hl, fun i y x' hy hx p x hn => ?_⟩
  obtain ⟨hi', rfl⟩ := List.getElem?_eq_some_iff.1 hy
  obtain ⟨a, b, ha, hb, e2⟩ := hg i hi'
  rw [ha] at hx
  cases hx
  have hw := hi.pick hb
  have hr : IsRigid (M i) := by
    unfold Spec.pick at hb
    have hlen : 0 < (t.inverseFl m).mats.length := by
      split at hb
      · omega
      · obtain ⟨h0, -⟩ := List.getElem?_eq_some_iff.1 hb; omega
    rw [inverseFl_length] at hlen
    split at hb
    case isTrue h1 => rw [h.one (h.rows ▸ inverseFl_length m t ▸ h1) i]; exact (h.near 0 hlen).rigid
    case isFalse h1 =>
      obtain ⟨h0, -⟩ := List.getElem?_eq_some_iff.1 hb
      rw [inverseFl_length] at h0
      exact (h.near i h0).rigid
  have := applyNormalsFl_near m hQ (hw.rigid.1 : IsRot (rotPart (M i)⁻¹)) hw.rot hn
  have e4 : rotPart (M i)⁻¹ = (rotPart (M i))ᵀ := by rw [rigid_inv hr, rotPart_mkHom]
  change PointNear _ _ _ ((rotPart (M i)⁻¹)ᵀ *ᵥ x) at this
  rw [e4, Matrix.transpose_transpose] at this
  rw [e2]
  have e3 : actDir (M i) x = rotPart (M i) *ᵥ x := by
    funext j; simp [actDir, rotPart, Matrix.mulVec, dotProduct, Fin.sum_univ_three]
  rw [e3]
  refine ⟨this.len, this.near.trans (le_of_eq ?_)⟩
  ring

/-! ## leaves -/

/-- **C132**: a transform made from positions and quaternions (of any length other than 0). -/
theorem C132_pose (m : Machine) {τ l : ℝ} (hu : m.u ≤ τ) (h1 : τ ≤ 1 / 1000) {poses : List (V3 × Quat)} {M : ℕ → M4} (dt : DType) (dv : Device)
    (hq : ∀ p ∈ poses, p.2 ≠ ⟨0, 0, 0, 0⟩ ∧ vlen p.1 ≤ l)
    (hM : ∀ i p, Spec.pick poses i = some p → ∃ R, Turns p.2 R ∧ M i = mkHom R p.1) :
    Stands (1 + 54 * τ) l (T3.poseFl m poses dt dv) poses.length M := by
  have h0 : 0 ≤ τ := m.u_nonneg.trans hu
  refine ⟨by simp [T3.poseFl], fun h1 i => ?_, fun i hi => ?_, by rintro ⟨⟩, by rintro ⟨⟩, by rintro ⟨⟩, by rintro ⟨⟩⟩
  · obtain ⟨p, rfl⟩ := List.length_eq_one_iff.1 h1
    obtain ⟨R, hR, e⟩ := hM i p (by simp [Spec.pick])
    obtain ⟨R', hR', e'⟩ := hM 0 p (by simp [Spec.pick])
    have hp := (hq p (by simp)).1
    rw [e, e', ← (turns_iff hp).1 hR, ← (turns_iff hp).1 hR']
  · have hi' : i < poses.length := by simpa [T3.poseFl] using hi
    have hp : Spec.pick poses i = some poses[i] := by
      unfold Spec.pick
      split
      case isTrue h1 =>
        obtain rfl : i = 0 := by omega
        exact List.getElem?_eq_getElem hi'
      case isFalse => exact List.getElem?_eq_getElem hi'
    obtain ⟨R, hR, e⟩ := hM i _ hp
    obtain ⟨hq0, hl⟩ := hq _ (List.getElem_mem hi')
    have e2 : (T3.poseFl m poses dt dv).mats[i] = mkHom (quaternionToMatrixFl m poses[i].2) poses[i].1 := by
      simp [T3.poseFl, hom_eq_mkHom]
    have hrot : IsRot R := by
      rw [← (turns_iff hq0).1 hR]; exact quaternionToMatrix_isRot (Quat.normSq_pos hq0).ne'
    rw [e2, e]
    refine ⟨isRigid_mkHom hrot _, mkHom_affine _ _, ?_, by rw [posPart_mkHom]; exact hl, ?_⟩
    · rw [rotPart_mkHom, rotPart_mkHom]
      refine (fro_le_of_entries (e := 18 * τ) (by positivity) fun i j => ?_).trans (by linarith)
      exact C115_quaternion_to_matrix m hu h1 hq0 hR i j
    · rw [posPart_mkHom, posPart_mkHom, sub_self]
      have : 0 ≤ l := (vlen_nonneg _).trans hl
      simp only [vlen, Pi.zero_apply]
      rw [show (0 : ℝ) ^ 2 + 0 ^ 2 + 0 ^ 2 = 0 by norm_num, Real.sqrt_zero]
      nlinarith [mul_nonneg h0 this]

/-- **C132**: `Translate` is exact. -/
theorem C132_translate {l : ℝ} {ps : List V3} {M : ℕ → M4} (dt : DType) (dv : Device) (hl : ∀ p ∈ ps, vlen p ≤ l)
    (hM : ∀ i p, Spec.pick ps i = some p → M i = mkHom 1 p) :
    ∃ t, T3.mkTranslate (.mat3 ps) .none .none dt dv = .ok t ∧ Stands 1 l t ps.length M := by
  have hp : ∀ i (hi : i < ps.length), Spec.pick ps i = some ps[i] := fun i hi => by
    unfold Spec.pick
    split
    case isTrue h1 =>
      obtain rfl : i = 0 := by omega
      exact List.getElem?_eq_getElem hi
    case isFalse => exact List.getElem?_eq_getElem hi
  refine ⟨_, rfl, by simp, fun h1 i => ?_, fun i hi => ?_, by rintro ⟨⟩, by rintro ⟨⟩, fun _ i hi => ?_, by rintro ⟨⟩⟩
  · obtain ⟨p, rfl⟩ := List.length_eq_one_iff.1 h1
    rw [hM i p (by simp [Spec.pick]), hM 0 p (by simp [Spec.pick])]
  · have hi' : i < ps.length := by simpa using hi
    have e := hM i _ (hp i hi')
    simp only [List.getElem_map, hom_eq_mkHom]
    rw [e]
    have := (within_refl (isRigid_mkHom isRot_one ps[i])).mono (g' := 1 - 1) (l' := l) (by norm_num)
      (by rw [posPart_mkHom]; exact hl _ (List.getElem_mem hi'))
    exact this
  · rw [hM i _ (hp i hi), rotPart_mkHom]

theorem axisAngleRotationFl_near (s m : Machine) (a : XYZ) {θ θ' d : ℝ} (h : |θ' - θ| ≤ d) (i j : Fin 3) :
    |(axisAngleRotationFl m (axOf a) θ').map s.rnd i j - elem a θ i j| ≤ (m.κ + d) + s.u * (1 + (m.κ + d)) := by
  have hd : 0 ≤ d := (abs_nonneg _).trans h
  have hκ : 0 ≤ m.κ := (abs_nonneg _).trans (m.cos_err 0)
  have hc : |m.cos θ' - Real.cos θ| ≤ m.κ + d := by
    have := abs_sub_le (m.cos θ') (Real.cos θ') (Real.cos θ)
    linarith [m.cos_err θ', (Real.abs_cos_sub_cos_le θ' θ).trans h]
  have hs : |m.sin θ' - Real.sin θ| ≤ m.κ + d := by
    have := abs_sub_le (m.sin θ') (Real.sin θ') (Real.sin θ)
    linarith [m.sin_err θ', (Real.abs_sin_sub_sin_le θ' θ).trans h]
  have hs' : |-m.sin θ' - -Real.sin θ| ≤ m.κ + d := by rw [neg_sub_neg, abs_sub_comm]; exact hs
  have c1 := Real.abs_cos_le_one θ
  have s1 := Real.abs_sin_le_one θ
  have s1' : |-Real.sin θ| ≤ 1 := by rw [abs_neg]; exact s1
  have e0 : |(0 : ℝ) - 0| ≤ m.κ + d := by simp; linarith
  have e1 : |(1 : ℝ) - 1| ≤ m.κ + d := by simp; linarith
  have key : ∀ {x' x : ℝ}, |x' - x| ≤ m.κ + d → |x| ≤ 1 → |s.rnd x' - x| ≤ (m.κ + d) + s.u * (1 + (m.κ + d)) :=
    fun hx hx1 => rnd_near s le_rfl hx hx1
  have k0 := key e0 (by simp)
  have k1 := key e1 (by simp)
  rw [← axisAngleRotation_eq]
  cases a <;> fin_cases i <;> fin_cases j <;>
    first | exact k0 | exact k1 | exact key hc c1 | exact key hs s1 | exact key hs' s1'

theorem radFl_near (m : Machine) (x : ℝ) :
    |m.rnd (m.rnd (x / 180) * m.rnd Real.pi) - x * (Real.pi / 180)| ≤ ((1 + m.u) ^ 3 - 1) * |x * (Real.pi / 180)| := by
  obtain ⟨a, ha, ea⟩ := rnd_factor m.u_nonneg m.rnd_err (x / 180)
  obtain ⟨b, hb, eb⟩ := rnd_factor m.u_nonneg m.rnd_err Real.pi
  obtain ⟨c, hc, ec⟩ := rnd_factor m.u_nonneg m.rnd_err (x / 180 * a * (Real.pi * b))
  rw [ea, eb, ec]
  have h := one_add_prod (one_add_prod ha hb) hc
  have e : x / 180 * a * (Real.pi * b) * c - x * (Real.pi / 180) = (a * b * c - 1) * (x * (Real.pi / 180)) := by ring
  rw [e, abs_mul]
  refine mul_le_mul_of_nonneg_right (h.trans (le_of_eq (by ring))) (abs_nonneg _)

/-- **C132**: `RotateAxisAngle`: the angle is converted and the sine and cosine are computed in the requested precision `m`, and then
rounded to single precision `s`. -/
theorem C132_rotate_axis_angle (s m : Machine) {A : ℝ} (a : XYZ) {axis : List Char} (ha : axis = [a.upper] ∨ axis = [a.lower])
    (deg : Bool) (angles : List ℝ) (dv : Device) {M : ℕ → M4}
    (hM : ∀ i x, Spec.pick angles i = some x → M i = mkHom (elem a (if deg then x * (Real.pi / 180) else x)) 0)
    (hA : ∀ x ∈ angles, |x * (Real.pi / 180)| ≤ A) :
    ∃ t, T3.mkRotateAxisAngleFl s m (.vec angles) axis deg dv = .ok t ∧
      Stands (1 + 3 * ((m.κ + if deg then ((1 + m.u) ^ 3 - 1) * A else 0) +
        s.u * (1 + (m.κ + if deg then ((1 + m.u) ^ 3 - 1) * A else 0)))) 0 t angles.length M := by
  set d : ℝ := if deg then ((1 + m.u) ^ 3 - 1) * A else 0 with hd
  set f : ℝ → ℝ := fun x => if deg then m.rnd (m.rnd (x / 180) * m.rnd Real.pi) else x with hf
  have hnear : ∀ x ∈ angles, |f x - (if deg then x * (Real.pi / 180) else x)| ≤ d := by
    intro x hx
    cases deg
    · simp [hf, hd]
    · simp only [hf, hd, if_true]
      refine (radFl_near m x).trans (mul_le_mul_of_nonneg_left (hA x hx) ?_)
      have := one_le_pow₀ (n := 3) (show (1 : ℝ) ≤ 1 + m.u by linarith [m.u_nonneg])
      linarith
  have hfun : T3.mkRotateAxisAngleFl s m (.vec angles) axis deg dv =
      .ok (T3.mkRotate (.mats (angles.map fun x => (axisAngleRotationFl m (axOf a) (f x)).map s.rnd)) .f32 dv) := by
    have hu : axis.map Char.toUpper = [a.upper] := by
      rcases ha with rfl | rfl <;> cases a <;> decide
    have hx : letterAx a.upper = some (axOf a) := by cases a <;> simp [letterAx, XYZ.upper, axOf]
    unfold T3.mkRotateAxisAngleFl
    rw [hu]
    simp only [hx, handleAngle, ok_bind, pure_ok]
    cases deg <;> simp [hf, Function.comp_def]
  have hp : ∀ i (hi : i < angles.length), Spec.pick angles i = some angles[i] := fun i hi => by
    unfold Spec.pick
    split
    case isTrue h1 =>
      obtain rfl : i = 0 := by omega
      exact List.getElem?_eq_getElem hi
    case isFalse => exact List.getElem?_eq_getElem hi
  refine ⟨_, hfun, by simp [T3.mkRotate, RotArg.toMats], fun h1 i => ?_, fun i hi => ?_, fun _ N hN => ?_, fun _ i hi => ?_, by rintro ⟨⟩,
    by rintro ⟨⟩⟩
  · obtain ⟨p, rfl⟩ := List.length_eq_one_iff.1 h1
    rw [hM i p (by simp [Spec.pick]), hM 0 p (by simp [Spec.pick])]
  · have hi' : i < angles.length := by simpa [T3.mkRotate, RotArg.toMats] using hi
    simp only [T3.mkRotate, RotArg.toMats, List.getElem_map, hom_eq_mkHom]
    rw [hM i _ (hp i hi')]
    have hrot := isRot_rotAbout (k := a.vec) (by cases a <;> simp [IsUnitV, XYZ.vec])
    have hn := hnear _ (List.getElem_mem hi')
    refine ⟨isRigid_mkHom (hrot _) _, mkHom_affine _ _, ?_, by simp [vlen], by simp [vlen]⟩
    rw [rotPart_mkHom, rotPart_mkHom, add_sub_cancel_left]
    refine fro_le_of_entries ?_ fun i j => axisAngleRotationFl_near s m a hn i j
    exact (abs_nonneg _).trans (axisAngleRotationFl_near s m a hn 0 0)
  · simp only [T3.mkRotate, RotArg.toMats, List.mem_map] at hN
    obtain ⟨R, -, rfl⟩ := hN
    rw [hom_eq_mkHom, posPart_mkHom]
  · rw [hM i _ (hp i hi), posPart_mkHom]

/-! ## binary arithmetic -/

/-- a machine given by its rounding function, summing from left to right -/
noncomputable def PointMachine.ofRounding (rnd : ℝ → ℝ) (u : ℝ) (hu : 0 ≤ u) (h : ∀ x, |rnd x - x| ≤ u * |x|) (h1 : rnd 1 = 1) :
    PointMachine where
  toMachine := .ofRounding rnd u hu h h1
  dot4 a b := (Machine.ofRounding rnd u hu h h1).mul (fun _ k => a k) (fun k _ => b k) 0 0
  dot4_err a b := (Machine.ofRounding rnd u hu h h1).mul_err (fun _ k => a k) (fun k _ => b k) 0 0
  dot4_last a ha := by
    have h0 : rnd 0 = 0 := by simpa using h 0
    simp [Machine.ofRounding, h0, h1, ha]

/-- arithmetic with `p` binary digits -/
noncomputable def binaryPoints (p : ℕ) (hp : 1 ≤ p) : PointMachine :=
  .ofRounding (roundTo p) (2 ^ (-(p : ℤ))) (by positivity) (roundTo_err p) (roundTo_one hp)

theorem binaryPoints_toMachine (p : ℕ) (hp : 1 ≤ p) : (binaryPoints p hp).toMachine = binary p hp := rfl

/-- **C132**: with `q` binary digits (24 for `float32`, 53 for `float64`): transforms made from positions and quaternions, composed and
inverted in any way, take points to where the exact transforms take them, up to `(108 a + 26 b + 28) / 2 ^ q` times the distances
involved, where `a` and `b` count leaves and operations. -/
theorem C132_precision (q : ℕ) (hq : 10 ≤ q) {l : ℕ → ℝ} {poses : ℕ → List (V3 × Quat)} {M : ℕ → ℕ → M4} (dt : DType) (dv : Device)
    (h0 : ∀ k, ∀ p ∈ poses k, p.2 ≠ ⟨0, 0, 0, 0⟩ ∧ vlen p.1 ≤ l k)
    (hM : ∀ k i p, Spec.pick (poses k) i = some p → ∃ R, Turns p.2 R ∧ M k i = mkHom R p.1)
    (e : Pipe) {N : ℕ} (hN : e.size (fun k => (poses k).length) = some N) (hsmall : (54 * e.leaves + 13 * e.rounds + 14 : ℝ) ≤ 2 ^ q)
    {eps : Option ℝ} (he : ∀ e, eps = some e → e ≤ 1) {P : ℕ} (x : Matrix (Fin P) (Fin 3) ℝ) {s : ℝ} (hs : ∀ p, vlen (x p) ≤ s) :
    ∃ t Y, e.evalFl (binary q (by omega)) (fun k => T3.poseFl (binary q (by omega)) (poses k) dt dv) = .ok t ∧
      t.transformPointsFl (binaryPoints q (by omega)) eps (.flat x) = .ok (if N = 1 then .flat (Y 0) else .batch ((List.range N).map Y)) ∧
      ∀ i < N, ∀ p, vlen (Y i p - act (e.value M i) (x p)) ≤
        (108 * e.leaves + 26 * e.rounds + 28) / 2 ^ q * (s + e.reach l) := by
  obtain ⟨hU, -⟩ := binary_u q (by omega)
  have h0' : (0 : ℝ) < 1 / 2 ^ q := by positivity
  have h1 : (1 : ℝ) / 2 ^ q ≤ 1 / 1024 := by
    rw [show (1024 : ℝ) = 2 ^ 10 by norm_num]
    exact one_div_le_one_div_of_le (by positivity) (pow_le_pow_right₀ (by norm_num) hq)
  have hγ : (binary q (by omega)).γ = (1 + 1 / 2 ^ q) ^ 4 - 1 := by
    rw [← hU]; rfl
  have hγ' : 3 * (binary q (by omega)).γ ≤ 13 * (1 / 2 ^ q) := by
    rw [hγ]
    have h0 := h0'.le
    generalize (1 : ℝ) / 2 ^ q = u at h0 h1
    have : u * u ≤ u * (1 / 1024) := mul_le_mul_of_nonneg_left h1 h0
    have h3 : u ^ 3 ≤ u * u := by nlinarith [mul_nonneg h0 h0]
    have h4 : u ^ 4 ≤ u * u := by nlinarith [mul_nonneg h0 h0, pow_nonneg h0 3]
    nlinarith
  have hγ0 := (binary q (by omega)).γ_nonneg
  obtain ⟨t, et, st⟩ := (C132_pipeline (binary q (by omega)) (δ := 54 * (1 / 2 ^ q)) (l := l) (M := M)
    (t := fun k => T3.poseFl (binary q (by omega)) (poses k) dt dv) (n := fun k => (poses k).length)
    (fun k => C132_pose _ hU.le (h1.trans (by norm_num)) dt dv (h0 k) (hM k)) e).1 N hN
  obtain ⟨Y, eY, hY⟩ := C132_points_flat (binaryPoints q (by omega)) he (s := s) (Q := 1) le_rfl st x
  refine ⟨t, Y, et, eY, fun i hi p => ?_⟩
  have hn := (hY i hi p (x p) ⟨hs p, by simp [vlen]⟩).near
  have hr0 : 0 ≤ s + e.reach l := by
    have := (st.near i (st.rows ▸ hi)).l_nonneg
    linarith [(vlen_nonneg _).trans (hs p)]
  refine hn.trans (mul_le_mul_of_nonneg_right ?_ hr0)
  have hP : (binaryPoints q (by omega)).γ = (binary q (by omega)).γ := rfl
  have hPu : (binaryPoints q (by omega)).u = 1 / 2 ^ q := hU
  rw [hP, hPu]
  generalize (binary q (by omega)).γ = γ at *
  set v : ℝ := 1 / 2 ^ q with hv
  have b1 : (1 + 54 * v) ^ e.leaves ≤ Real.exp (e.leaves * (54 * v)) := by
    rw [Real.exp_nat_mul]; exact pow_le_pow_left₀ (by positivity) (by linarith [Real.add_one_le_exp (54 * v)]) _
  have b2 : (1 + 3 * γ) ^ (e.rounds + 1) ≤ Real.exp ((e.rounds + 1 : ℕ) * (13 * v)) := by
    rw [Real.exp_nat_mul]; exact pow_le_pow_left₀ (by positivity) (by linarith [Real.add_one_le_exp (13 * v)]) _
  have b3 : 1 + v ≤ Real.exp v := by linarith [Real.add_one_le_exp v]
  have b4 := mul_le_mul (mul_le_mul b1 b2 (by positivity) (Real.exp_pos _).le) b3 (by positivity) (by positivity)
  rw [← Real.exp_add, ← Real.exp_add] at b4
  set y : ℝ := e.leaves * (54 * v) + (e.rounds + 1 : ℕ) * (13 * v) + v with hy
  have hy0 : 0 ≤ y := by positivity
  have hye : y = (54 * e.leaves + 13 * e.rounds + 14) * v := by rw [hy]; push_cast; ring
  have hy1 : y ≤ 1 := by
    rw [hye, hv, mul_one_div, div_le_one (by positivity)]
    exact hsmall
  have b5 := Real.abs_exp_sub_one_le (x := y) (by rw [abs_of_nonneg hy0]; exact hy1)
  rw [abs_of_nonneg hy0] at b5
  have b6 := (abs_le.1 b5).2
  have e1 : (1 + 54 * v) ^ e.leaves * (1 + 3 * γ) ^ e.rounds * (1 + 3 * γ) * (1 + v) * 1 - 1 =
      (1 + 54 * v) ^ e.leaves * (1 + 3 * γ) ^ (e.rounds + 1) * (1 + v) - 1 := by ring
  rw [e1]
  refine (show _ ≤ 2 * y by linarith).trans (le_of_eq ?_)
  rw [hye, hv]
  ring

/-- the leaves of the examples: a batch of two poses, the second with a quaternion that is not of unit length, and single poses -/
def exPoses : ℕ → List (V3 × Quat)
  | 0 => [(![1, 0, 0], ⟨1, 0, 0, 0⟩), (![0, 3, 4], ⟨0, 3, 0, 4⟩)]
  | _ => [(![0, 0, 2], ⟨1, 1, 0, 0⟩)]

/-- what they stand for -/
noncomputable def exPoseM (k i : ℕ) : M4 := match Spec.pick (exPoses k) i with
  | some p => mkHom (quaternionToMatrix p.2) p.1
  | none => 1

theorem exPoses_ok (k : ℕ) : ∀ p ∈ exPoses k, p.2 ≠ ⟨0, 0, 0, 0⟩ ∧ vlen p.1 ≤ 5 := by
  intro p hp
  have h25 : Real.sqrt 25 ≤ 5 := by rw [Real.sqrt_le_iff]; norm_num
  have h4 : Real.sqrt 4 ≤ 5 := by rw [Real.sqrt_le_iff]; norm_num
  rcases k with _ | k
  · simp only [exPoses, List.mem_cons, List.not_mem_nil, or_false] at hp
    rcases hp with rfl | rfl
    · simp [vlen]
    · refine ⟨by simp, ?_⟩
      simp only [vlen, Matrix.cons_val]
      norm_num
      exact h25
  · simp only [exPoses, List.mem_singleton] at hp
    subst hp
    refine ⟨by simp, ?_⟩
    simp only [vlen, Matrix.cons_val]
    norm_num
    exact h4

theorem exPoses_turns (k i : ℕ) (p : V3 × Quat) (h : Spec.pick (exPoses k) i = some p) : ∃ R, Turns p.2 R ∧ exPoseM k i = mkHom R p.1 := by
  refine ⟨quaternionToMatrix p.2, (turns_iff ?_).2 rfl, by simp [exPoseM, h]⟩
  refine (exPoses_ok k p ?_).1
  unfold Spec.pick at h
  split at h <;> exact List.mem_of_getElem? h

/-- `a.inverse().compose(b).compose(a)` in single precision, where `a` is a batch of two and `b` one pose, applied to the point (1, 2, 2) -/
example : ∃ (t : T3) (Y : ℕ → Matrix (Fin 1) (Fin 3) ℝ), ((Pipe.leaf 0).inverse.compose (.leaf 1) |>.compose (.leaf 0)).evalFl (binary 24 (by norm_num))
      (fun k => T3.poseFl (binary 24 (by norm_num)) (exPoses k) .f32 cpu) = .ok t ∧
    t.transformPointsFl (binaryPoints 24 (by norm_num)) none (.flat !![1, 2, 2]) = .ok (.batch [Y 0, Y 1]) ∧
    ∀ i < 2, vlen (Y i 0 - act ((exPoseM 0 i)⁻¹ * exPoseM 1 i * exPoseM 0 i) ![1, 2, 2]) ≤ 538 / 2 ^ 24 * 18 := by
  obtain ⟨t, Y, h1, h2, h3⟩ := C132_precision 24 (by norm_num) (l := fun _ => 5) (poses := exPoses) (M := exPoseM) .f32 cpu
    exPoses_ok exPoses_turns ((Pipe.leaf 0).inverse.compose (.leaf 1) |>.compose (.leaf 0)) (N := 2)
    (by simp [Pipe.size, exPoses, Compat, bsize]) (by norm_num [Pipe.leaves, Pipe.rounds]) (eps := none) (by simp) !![1, 2, 2] (s := 3)
    (fun p => by
      fin_cases p
      have : Real.sqrt 9 ≤ 3 := by rw [Real.sqrt_le_iff]; norm_num
      refine (le_of_eq ?_).trans this
      show Real.sqrt (1 ^ 2 + 2 ^ 2 + 2 ^ 2) = _
      norm_num)
  refine ⟨t, Y, h1, by simpa [List.range_succ] using h2, fun i hi => (h3 i hi 0).trans (le_of_eq ?_)⟩
  norm_num [Pipe.leaves, Pipe.rounds, Pipe.reach]

/-- batches of two and three do not fit -/
example : ((Pipe.leaf 0).compose (.leaf 1)).size (fun k => k + 2) = none := by simp [Pipe.size, Compat]

/-- there and back in double precision -/
example : ∃ Y Z : List (Matrix (Fin 1) (Fin 3) ℝ),
    (T3.poseFl (binary 53 (by norm_num)) (exPoses 0) .f64 cpu).transformPointsFl (binaryPoints 53 (by norm_num)) none
      (.batch [!![1, 2, 2], !![0, 0, 0]]) = .ok (.batch Y) ∧
    ((T3.poseFl (binary 53 (by norm_num)) (exPoses 0) .f64 cpu).inverseFl (binary 53 (by norm_num))).transformPointsFl
      (binaryPoints 53 (by norm_num)) none (.batch Y) = .ok (.batch Z) ∧ Z.length = 2 := by
  have hs := C132_pose (binary 53 (by norm_num)) (τ := 1 / 2 ^ 53) (binary_u 53 (by norm_num)).1.le (by norm_num) (M := exPoseM 0) .f64 cpu
    (exPoses_ok 0) (exPoses_turns 0)
  obtain ⟨Y, Z, h1, h2, h3, -⟩ := C132_round_trip (binaryPoints 53 (by norm_num)) (eps := none) (by simp) (s := 3) hs
    [!![1, 2, 2], !![0, 0, 0]] rfl (fun x hx p => by
      fin_cases p
      have : Real.sqrt 9 ≤ 3 := by rw [Real.sqrt_le_iff]; norm_num
      simp only [List.mem_cons, List.not_mem_nil, or_false] at hx
      rcases hx with rfl | rfl
      · refine (le_of_eq ?_).trans this
        show Real.sqrt (1 ^ 2 + 2 ^ 2 + 2 ^ 2) = _
        norm_num
      · simp [vlen])
  exact ⟨Y, Z, h1, h2, h3⟩

/-- a rotation by 90 degrees about `z`, requested in double precision -/
example : ∃ t, T3.mkRotateAxisAngleFl (binary 24 (by norm_num)) (binary 53 (by norm_num)) (.vec [90]) ['z'] true cpu = .ok t ∧
    ∃ F, Stands F 0 t 1 fun _ => mkHom (elem .z (90 * (Real.pi / 180))) 0 := by
  obtain ⟨t, h1, h2⟩ := C132_rotate_axis_angle (binary 24 (by norm_num)) (binary 53 (by norm_num)) (A := 90 * (Real.pi / 180)) .z
    (axis := ['z']) (.inr rfl) true [90] cpu (M := fun _ => mkHom (elem .z (90 * (Real.pi / 180))) 0)
    (fun i x hx => by
      simp only [Spec.pick, List.length_singleton, if_true, List.getElem?_cons_zero, Option.some.injEq] at hx
      subst hx; simp)
    (fun x hx => by
      simp only [List.mem_singleton] at hx
      subst hx
      rw [abs_of_nonneg (by have := Real.pi_pos; positivity)])
  exact ⟨t, h1, _, h2⟩

end PK
