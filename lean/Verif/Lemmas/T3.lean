import Verif.Lemmas.Bzip
import Verif.Lemmas.Rot
import Verif.Lemmas.Rigid
import Mathlib.Tactic.FinCases
import Mathlib.Tactic.LinearCombination

/-!
# Lemmas about `Transform3d`
-/

namespace PK
open Matrix Spec

theorem m4_ext {A B : M4} (h : ∀ i j, A i j = B i j) : A = B := by ext i j; exact h i j

theorem affine_row {M : M4} (h : IsAffine M) : M 3 0 = 0 ∧ M 3 1 = 0 ∧ M 3 2 = 0 ∧ M 3 3 = 1 := by
  unfold IsAffine at h; rw [h]; simp

theorem affine_mul {A B : M4} (ha : IsAffine A) (hb : IsAffine B) : IsAffine (A * B) := by
  obtain ⟨a0, a1, a2, a3⟩ := affine_row ha
  obtain ⟨b0, b1, b2, b3⟩ := affine_row hb
  unfold IsAffine
  ext j
  simp only [Matrix.mul_apply, Fin.sum_univ_four, a0, a1, a2, a3]
  fin_cases j <;> simp [b0, b1, b2, b3]

/-- legal `eps` values: none, or at most 1 -/
def EpsOk (eps : Option ℝ) : Prop := ∀ e, eps = some e → e ≤ 1

theorem applyPoints_affine {P : ℕ} {eps : Option ℝ} (he : EpsOk eps) (X : Matrix (Fin P) (Fin 3) ℝ) {M : M4}
    (hM : IsAffine M) : applyPoints eps X M = actRows M X := by
  obtain ⟨a0, a1, a2, a3⟩ := affine_row hM
  ext p j
  simp only [applyPoints, actRows, Matrix.of_apply, a0, a1, a2, a3, act]
  cases eps with
  | none => simp; ring
  | some e => simp [he e rfl]; ring

theorem actRows_mul {P : ℕ} {A B : M4} (hb : IsAffine B) (X : Matrix (Fin P) (Fin 3) ℝ) :
    actRows (A * B) X = actRows A (actRows B X) := by
  obtain ⟨b0, b1, b2, b3⟩ := affine_row hb
  ext p j
  simp only [actRows, Matrix.of_apply, act, Matrix.mul_apply, Fin.sum_univ_four, b0, b1, b2, b3]
  simp only [Fin.castSucc_zero, show Fin.castSucc (1 : Fin 3) = 1 from rfl, show Fin.castSucc (2 : Fin 3) = 2 from rfl]
  ring

/-- every matrix of the transform has last row `0 0 0 1` -/
def T3.Affine (t : T3) : Prop := ∀ M ∈ t.mats, IsAffine M

theorem T3.compose_nil (t : T3) : t.compose [] = .ok ⟨.plain, t.mats, t.mdtype, t.mdevice, t.mdtype, t.mdevice⟩ := rfl

theorem T3.compose_one (t u : T3) : t.compose [u] =
    (bzip (· * ·) t.mats u.mats >>= fun m => .ok ⟨.plain, m, t.mdtype, t.mdevice, t.mdtype, t.mdevice⟩) := by
  simp [T3.compose, List.foldlM_cons, pure_ok, ok_bind]

theorem T3.compose_cons (t u : T3) (us : List T3) : t.compose (u :: us) = (t.compose [u] >>= (·.compose us)) := by
  rw [T3.compose_one]
  unfold T3.compose
  simp only [List.foldlM_cons]
  rcases bzip (· * ·) t.mats u.mats with e | m
  · rfl
  · simp only [ok_bind]

theorem T3.compose_affine {t u s : T3} (ht : t.Affine) (hu : u.Affine) (h : t.compose [u] = .ok s) : s.Affine := by
  rw [T3.compose_one] at h
  rcases e : bzip (· * ·) t.mats u.mats with e' | m
  · rw [e] at h; cases h
  · rw [e] at h
    cases h
    intro M hM
    obtain ⟨x, hx, y, hy, rfl⟩ := bzip_mem e M hM
    exact affine_mul (ht _ hx) (hu _ hy)

theorem T3.compose_error {t u : T3} {e : Err} (h : t.compose [u] = .error e) : e = .valueError := by
  rw [T3.compose_one] at h
  rcases e' : bzip (· * ·) t.mats u.mats with e'' | m
  · rw [e'] at h
    cases h
    exact (bzip_error_value e').1
  · rw [e'] at h; cases h

theorem T3.transformPoints_error {P : ℕ} {t : T3} {eps : Option ℝ} {y : Points P} {e : Err}
    (h : t.transformPoints eps y = .error e) : e = .valueError := by
  cases y with
  | flat x =>
    simp only [T3.transformPoints] at h
    rcases e' : bzip (applyPoints eps) [x] t.mats with e'' | m
    · rw [e'] at h; cases h; exact (bzip_error_value e').1
    · rw [e'] at h; cases h
  | batch xs =>
    simp only [T3.transformPoints] at h
    rcases e' : bzip (applyPoints eps) xs t.mats with e'' | m
    · rw [e'] at h; cases h; exact (bzip_error_value e').1
    · rw [e'] at h; cases h
  | other => cases h; rfl

theorem reshapeBack_ne {P : ℕ} (b : Bool) {l : List (Matrix (Fin P) (Fin 3) ℝ)} (h : l.length ≠ 1) :
    reshapeBack b l = .batch l := by
  unfold reshapeBack
  split
  · simp at h
  · rfl

/-- composing two transforms applies the second one first, sizes and errors included -/
theorem T3.compose_transformPoints {P : ℕ} {t u : T3} (ht : t.Affine) (hu : u.Affine) {eps : Option ℝ}
    (he : EpsOk eps) (y : Points P) :
    (t.compose [u] >>= fun s => s.transformPoints eps y) =
      (u.transformPoints eps y >>= fun y' => t.transformPoints eps y') := by
  have key : ∀ xs : List (Matrix (Fin P) (Fin 3) ℝ),
      (bzip (applyPoints eps) xs u.mats >>= fun ys => bzip (applyPoints eps) ys t.mats) =
      (bzip (· * ·) t.mats u.mats >>= fun m => bzip (applyPoints eps) xs m) := by
    intro xs
    rw [bzip_flip (· * ·) t.mats u.mats]
    apply bzip_assoc
    intro x _ M hM N hN
    rw [applyPoints_affine he _ (hu M hM), applyPoints_affine he _ (ht N hN),
      applyPoints_affine he _ (affine_mul (ht N hN) (hu M hM)), actRows_mul (hu M hM)]
  rw [T3.compose_one]
  cases y with
  | other =>
    rcases e : bzip (· * ·) t.mats u.mats with e' | m
    · have := (bzip_error_value e).1
      subst this
      rfl
    · rfl
  | batch xs =>
    have := key xs
    simp only [T3.transformPoints, bind_assoc, ok_bind, pure_ok] at this ⊢
    rw [← bind_assoc, ← this]
    simp only [bind_assoc, reshapeBack]
  | flat x =>
    have := key [x]
    simp only [T3.transformPoints, bind_assoc, ok_bind, pure_ok] at this ⊢
    rw [← bind_assoc, ← this]
    rw [bzip_left]
    simp only [ok_bind]
    by_cases hl : u.mats.length = 1
    · obtain ⟨M, hM⟩ := List.length_eq_one_iff.1 hl
      rw [hM]
      rfl
    · rw [reshapeBack_ne true (by simpa using hl)]
      simp only
      rcases e : bzip (applyPoints eps) (List.map (applyPoints eps x) u.mats) t.mats with e' | m
      · rfl
      · have h1 := bzip_ok_length e
        rw [if_neg (by simpa using hl)] at h1
        simp only [ok_bind]
        rw [reshapeBack_ne true (by rw [h1]; simpa using hl), reshapeBack_ne false (by rw [h1]; simpa using hl)]

end PK
