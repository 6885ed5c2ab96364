import Verif.Lemmas.MatRound
import Verif.Lemmas.AngleRound
import Verif.Model.FloatLoad
import Verif.Spec.FloatLoad
import Verif.Props.Urdf

/-!
# Rounding errors of loading
-/

namespace PK
open Spec Matrix Urdf

theorem update_near {f f' : ℕ → ℝ} {a a' ε : ℝ} (h : ∀ n, |f' n - f n| ≤ ε) (ha : |a' - a| ≤ ε) (i : ℕ) :
    ∀ n, |Function.update f' i a' n - Function.update f i a n| ≤ ε := by
  intro n
  by_cases hn : n = i
  · subst hn; simpa using ha
  · simpa [Function.update_of_ne hn] using h n

section
variable (m : Machine) {τ e : ℝ} (hu : m.u ≤ τ) (h0 : 0 ≤ τ) (hτ : τ ≤ e) (he : e ≤ 1 / 100)
include hu h0 hτ he

/-- a rounded product of two numbers up to 1 -/
theorem prod2_near {a b a' b' : ℝ} (ha : |a' - a| ≤ e) (hb : |b' - b| ≤ e) (ha1 : |a| ≤ 1) (hb1 : |b| ≤ 1) :
    |m.rnd (a' * b') - a * b| ≤ 3.1 * e := by
  have e0 := (abs_nonneg _).trans ha
  have s := rnd_near m hu (mul_near ha ha1 hb hb1) (show |a * b| ≤ 1 by rw [abs_mul]; exact mul_le_one₀ ha1 (abs_nonneg _) hb1)
  refine s.trans ?_
  have e2 : e * e ≤ 0.01 * e := by nlinarith
  nlinarith [mul_le_mul_of_nonneg_right hτ e0, mul_nonneg h0 (mul_nonneg e0 e0)]

/-- and of three -/
theorem prod3_near {a b a' b' : ℝ} (ha : |a' - a| ≤ e) (hb : |b' - b| ≤ 3.1 * e) (ha1 : |a| ≤ 1) (hb1 : |b| ≤ 1) :
    |m.rnd (a' * b') - a * b| ≤ 5.3 * e := by
  have e0 := (abs_nonneg _).trans ha
  have s := rnd_near m hu (mul_near ha ha1 hb hb1) (show |a * b| ≤ 1 by rw [abs_mul]; exact mul_le_one₀ ha1 (abs_nonneg _) hb1)
  refine s.trans ?_
  have e2 : e * e ≤ 0.01 * e := by nlinarith
  have t2 : τ * e ≤ 0.01 * e := by nlinarith
  nlinarith [mul_le_mul_of_nonneg_right hτ e0, mul_nonneg h0 (mul_nonneg e0 e0), mul_le_mul_of_nonneg_left e2 h0]

/-- a rounded sum of two such numbers -/
theorem sum53_near {a b a' b' : ℝ} (ha : |a' - a| ≤ 5.3 * e) (hb : |b' - b| ≤ 5.3 * e) (ha1 : |a| ≤ 1) (hb1 : |b| ≤ 1) :
    |m.rnd (a' + b') - (a + b)| ≤ 13 * e := by
  have e0 : 0 ≤ e := h0.trans hτ
  have s := rnd_near m hu (add_near ha hb) (show |a + b| ≤ 2 from (abs_add_le _ _).trans (by linarith))
  refine s.trans ?_
  have t2 : τ * e ≤ 0.01 * e := by nlinarith
  nlinarith

/-- a rounded product with a rounded sum -/
theorem prodsum_near {a b c a' b' c' : ℝ} (ha : |a' - a| ≤ e) (hb : |b' - b| ≤ 3.1 * e) (hc : |c' - c| ≤ 3.1 * e) (ha1 : |a| ≤ 1)
    (hb1 : |b| ≤ 1) (hc1 : |c| ≤ 1) : |m.rnd (a' * m.rnd (b' + c')) - a * (b + c)| ≤ 13 * e := by
  have e0 : 0 ≤ e := h0.trans hτ
  have t2 : τ * e ≤ 0.01 * e := by nlinarith
  have e2 : e * e ≤ 0.01 * e := by nlinarith
  have hbc : |b + c| ≤ 2 := (abs_add_le _ _).trans (by linarith)
  have s : |m.rnd (b' + c') - (b + c)| ≤ 8.3 * e := (rnd_near m hu (add_near hb hc) hbc).trans (by nlinarith)
  have hM : |a * (b + c)| ≤ 2 := by
    rw [abs_mul]; nlinarith [abs_nonneg a, abs_nonneg (b + c)]
  have s2 : |a' * m.rnd (b' + c') - a * (b + c)| ≤ 10.5 * e := (mul_near ha ha1 s hbc).trans (by nlinarith)
  exact (rnd_near m hu s2 hM).trans (by nlinarith)

end

theorem neg_near {a a' ε : ℝ} (h : |a' - a| ≤ ε) : |-a' - -a| ≤ ε := by
  rwa [← neg_sub', abs_neg]

/-- the half of a stored angle, its cosine and sine -/
theorem half_near (m : Machine) {τ A x x' : ℝ} (hu : m.u ≤ τ) (hκ : m.κ ≤ τ) (h0 : 0 ≤ τ) (h1 : τ ≤ 1 / 100) (hx : |x| ≤ A)
    (hx' : |x' - x| ≤ τ * A) :
    |m.cos (m.rnd (x' / 2)) - Real.cos (x / 2)| ≤ (1 + 1.01 * A) * τ ∧ |m.sin (m.rnd (x' / 2)) - Real.sin (x / 2)| ≤ (1 + 1.01 * A) * τ := by
  have A0 := (abs_nonneg _).trans hx
  have hh : |x' / 2 - x / 2| ≤ τ * A / 2 := by
    rw [← sub_div, abs_div, abs_two]; linarith
  have hM : |x / 2| ≤ A / 2 := by rw [abs_div, abs_two]; linarith
  have h2 : |m.rnd (x' / 2) - x / 2| ≤ 1.01 * A * τ := by
    refine (rnd_near m hu hh hM).trans ?_
    have : τ * (τ * A) ≤ 0.01 * (τ * A) := by nlinarith [mul_nonneg h0 A0]
    nlinarith
  constructor
  · have a := (m.cos_err (m.rnd (x' / 2))).trans hκ
    have b := Real.abs_cos_sub_cos_le (m.rnd (x' / 2)) (x / 2)
    have := abs_add_le (m.cos (m.rnd (x' / 2)) - Real.cos (m.rnd (x' / 2))) (Real.cos (m.rnd (x' / 2)) - Real.cos (x / 2))
    rw [sub_add_sub_cancel] at this
    linarith
  · have a := (m.sin_err (m.rnd (x' / 2))).trans hκ
    have b := Real.abs_sin_sub_sin_le (m.rnd (x' / 2)) (x / 2)
    have := abs_add_le (m.sin (m.rnd (x' / 2)) - Real.sin (m.rnd (x' / 2))) (Real.sin (m.rnd (x' / 2)) - Real.sin (x / 2))
    rw [sub_add_sub_cancel] at this
    linarith

/-- the quaternion computed from stored angles, for every axis sequence -/
theorem quaternionFromEulerFl_near (m : Machine) {τ A : ℝ} (hu : m.u ≤ τ) (hκ : m.κ ≤ τ) (hA : (1 + 1.01 * A) * τ ≤ 1 / 100)
    {e e' : V3} (he : ∀ i, |e i| ≤ A) (he' : ∀ i, |e' i - e i| ≤ τ * A) {axes : List Char} {q : Quat} {w : V3}
    (h : quaternionFromEuler e axes = .ok (q, w)) :
    ∃ q', quaternionFromEulerFl m e' axes = .ok q' ∧ QNear (13 * ((1 + 1.01 * A) * τ)) q' q := by
  have h0 : 0 ≤ τ := m.u_nonneg.trans hu
  have A0 := (abs_nonneg _).trans (he 0)
  have ht : τ ≤ (1 + 1.01 * A) * τ := by nlinarith [mul_nonneg A0 h0]
  have e0 : 0 ≤ (1 + 1.01 * A) * τ := h0.trans ht
  unfold quaternionFromEuler at h
  unfold quaternionFromEulerFl
  split at h
  · cases h
  · next fa pa re fr hl =>
    rw [hl]
    dsimp only at h ⊢
    split at h
    · next j' k' hj hk =>
      rw [hj, hk]
      dsimp only at h ⊢
      cases h
      refine ⟨_, rfl, ?_⟩
      have key := fun x' x hx hx' => half_near m (A := A) (x := x) (x' := x') hu hκ h0 (ht.trans hA) hx hx'
      have ki := key (if fr ≠ 0 then e' 2 else e' 0) (if fr ≠ 0 then e 2 else e 0) (by split <;> exact he _) (by split <;> exact he' _)
      have kj := key (if pa ≠ 0 then -(e' 1) else e' 1) (if pa ≠ 0 then -(e 1) else e 1)
        (by split <;> [(rw [abs_neg]; exact he _); exact he _]) (by split <;> [exact neg_near (he' _); exact he' _])
      have kk := key (if fr ≠ 0 then e' 0 else e' 2) (if fr ≠ 0 then e 0 else e 2) (by split <;> exact he _) (by split <;> exact he' _)
      generalize (if fr ≠ 0 then e' 2 else e' 0) = xi' at ki ⊢
      generalize (if fr ≠ 0 then e 2 else e 0) = xi at ki ⊢
      generalize (if pa ≠ 0 then -(e' 1) else e' 1) = xj' at kj ⊢
      generalize (if pa ≠ 0 then -(e 1) else e 1) = xj at kj ⊢
      generalize (if fr ≠ 0 then e' 0 else e' 2) = xk' at kk ⊢
      generalize (if fr ≠ 0 then e 0 else e 2) = xk at kk ⊢
      generalize hE : (1 + 1.01 * A) * τ = E at *
      have c1 := Real.abs_cos_le_one
      have s1 := Real.abs_sin_le_one
      have mu : ∀ {a b : ℝ}, |a| ≤ 1 → |b| ≤ 1 → |a * b| ≤ 1 := fun {a b} ha hb => by
        rw [abs_mul]; exact mul_le_one₀ ha (abs_nonneg _) hb
      have cc := prod2_near m hu h0 ht hA ki.1 kk.1 (c1 _) (c1 _)
      have cs := prod2_near m hu h0 ht hA ki.1 kk.2 (c1 _) (s1 _)
      have sc := prod2_near m hu h0 ht hA ki.2 kk.1 (s1 _) (c1 _)
      have ss := prod2_near m hu h0 ht hA ki.2 kk.2 (s1 _) (s1 _)
      have Mcc := mu (c1 (xi / 2)) (c1 (xk / 2))
      have Mcs := mu (c1 (xi / 2)) (s1 (xk / 2))
      have Msc := mu (s1 (xi / 2)) (c1 (xk / 2))
      have Mss := mu (s1 (xi / 2)) (s1 (xk / 2))
      have sub : ∀ {a b a' b' : ℝ}, |a' - a| ≤ 5.3 * E → |b' - b| ≤ 5.3 * E → |a| ≤ 1 → |b| ≤ 1 →
          |m.rnd (a' - b') - (a - b)| ≤ 13 * E := fun {a b a' b'} ha hb ha1 hb1 => by
        have := sum53_near m hu h0 ht hA ha (neg_near hb) ha1 (by rwa [abs_neg])
        rwa [← sub_eq_add_neg, ← sub_eq_add_neg] at this
      have psub : ∀ {a b c a' b' c' : ℝ}, |a' - a| ≤ E → |b' - b| ≤ 3.1 * E → |c' - c| ≤ 3.1 * E → |a| ≤ 1 → |b| ≤ 1 → |c| ≤ 1 →
          |m.rnd (a' * m.rnd (b' - c')) - a * (b - c)| ≤ 13 * E := fun {a b c a' b' c'} ha hb hc ha1 hb1 hc1 => by
        have := prodsum_near m hu h0 ht hA ha hb (neg_near hc) ha1 hb1 (by rwa [abs_neg])
        rwa [← sub_eq_add_neg, ← sub_eq_add_neg] at this
      have p3 := fun {b b' : ℝ} (hb : |b' - b| ≤ 3.1 * E) (hb1 : |b| ≤ 1) => prod3_near m hu h0 ht hA kj.1 hb (c1 _) hb1
      have p3' := fun {b b' : ℝ} (hb : |b' - b| ≤ 3.1 * E) (hb1 : |b| ≤ 1) => prod3_near m hu h0 ht hA kj.2 hb (s1 _) hb1
      have z : ∀ n : ℕ, |(fun _ => (0 : ℝ)) n - (fun _ => (0 : ℝ)) n| ≤ 13 * E := fun n => by simpa using e0
      have all : ∀ q1' q1 : ℕ → ℝ, (∀ n, |q1' n - q1 n| ≤ 13 * E) →
          ∀ n, |(if pa ≠ 0 then Function.update q1' (j' + 1) (q1' (j' + 1) * -1) else q1') n -
            (if pa ≠ 0 then Function.update q1 (j' + 1) (q1 (j' + 1) * -1) else q1) n| ≤ 13 * E := by
        intro q1' q1 hq n
        split
        · refine update_near hq ?_ _ n
          rw [mul_neg_one, mul_neg_one]; exact neg_near (hq _)
        · exact hq n
      by_cases hre : re ≠ 0
      · have fin := all _ _ (update_near (update_near (update_near (update_near z (psub kj.1 cc ss (c1 _) Mcc Mss) 0)
          (prodsum_near m hu h0 ht hA kj.1 cs sc (c1 _) Mcs Msc) (fa + 1))
          (prodsum_near m hu h0 ht hA kj.2 cc ss (s1 _) Mcc Mss) (j' + 1))
          (psub kj.2 cs sc (s1 _) Mcs Msc) (k' + 1))
        simp only [if_pos hre]
        intro i
        fin_cases i
        exacts [fin 0, fin 1, fin 2, fin 3]
      · have fin := all _ _ (update_near (update_near (update_near (update_near z
          (sum53_near m hu h0 ht hA (p3 cc Mcc) (p3' ss Mss) (mu (c1 _) Mcc) (mu (s1 _) Mss)) 0)
          (sub (p3 sc Msc) (p3' cs Mcs) (mu (c1 _) Msc) (mu (s1 _) Mcs)) (fa + 1))
          (sum53_near m hu h0 ht hA (p3 ss Mss) (p3' cc Mcc) (mu (c1 _) Mss) (mu (s1 _) Mcc)) (j' + 1))
          (sub (p3 cs Mcs) (p3' sc Msc) (mu (c1 _) Mcs) (mu (s1 _) Msc)) (k' + 1))
        simp only [if_neg hre]
        intro i
        fin_cases i
        exacts [fin 0, fin 1, fin 2, fin 3]
    · cases h



theorem originT_rigid (o : Option Pose) : IsRigid (originT o) := by
  cases o with
  | none => exact isRigid_one
  | some p =>
    refine isRigid_mkHom ?_ _
    have hu : ∀ a : XYZ, ∀ t, IsRot (elem a t) := fun a t => isRot_rotAbout (by cases a <;> simp [IsUnitV, XYZ.vec]) t
    exact ((hu _ _).mul (hu _ _)).mul (hu _ _)

section
variable (m : TrigMachine) {τ A : ℝ} (hu : m.u ≤ τ) (hκ : m.κ ≤ τ) (A0 : 0 ≤ A) (hA : (1 + A) * τ ≤ 1 / 1000)
include hu hκ A0 hA

theorem convertTransformFl_ok {o : Option Pose} (ho : AnglesLe A o) :
    ∃ T, convertTransformFl m o = .ok T ∧ Within (410 * ((1 + A) * τ)) (vlen (posPart (originT o))) T (originT o) := by
  have h0 : 0 ≤ τ := m.u_nonneg.trans hu
  have hAτ := mul_nonneg A0 h0
  have h1 : τ ≤ 1 / 1000 := by nlinarith
  cases o with
  | none => exact ⟨1, rfl, (within_refl isRigid_one).mono (by positivity) le_rfl⟩
  | some p =>
    have hp := ho p rfl
    obtain ⟨q, e', hq, hqu, hqm⟩ := C41_quaternion_from_euler false .x .y .z (by decide) (by decide) p.rpy
    have hr : ∀ x, |m.rnd x - x| ≤ τ * |x| := fun x => (m.rnd_err x).trans (mul_le_mul_of_nonneg_right hu (abs_nonneg x))
    obtain ⟨q', hq', hn⟩ := quaternionFromEulerFl_near m.toMachine (A := A) hu hκ (by nlinarith) hp
      (e' := fun i => m.rnd (p.rpy i)) (fun i => (hr _).trans (mul_le_mul_of_nonneg_left (hp i) h0)) hq
    have hq' : quaternionFromEulerFl m.toMachine (fun i => m.rnd (p.rpy i)) n!"sxyz" = .ok q' := hq'
    refine ⟨_, by simp only [convertTransformFl, hq', ok_bind]; rfl, originT_rigid _, ?_, ?_, le_rfl, ?_⟩
    · rw [hom_eq_mkHom]; exact mkHom_affine _ _
    · obtain ⟨hpos, hl⟩ := quaternionToMatrix_lip (by nlinarith) hqu hn
      rw [hom_eq_mkHom, rotPart_mkHom]
      have e : rotPart (originT (some p)) = quaternionToMatrix q := by
        rw [hqm]; exact rotPart_mkHom _ _
      rw [e]
      refine (fro_le_of_entries (e := 9 * (13 * ((1 + 1.01 * A) * τ)) + 18 * τ) (by positivity) fun i j => ?_).trans (by nlinarith)
      have a := quaternionToMatrixFl_near m.toMachine hu h0 h1 hpos i j
      have b := hl i j
      have := abs_add_le (quaternionToMatrixFl m.toMachine q' i j - quaternionToMatrix q' i j) (quaternionToMatrix q' i j - quaternionToMatrix q i j)
      rw [sub_add_sub_cancel] at this
      rw [Matrix.sub_apply]
      linarith
    · have e : posPart (originT (some p)) = p.xyz := posPart_mkHom _ _
      rw [hom_eq_mkHom, posPart_mkHom, e]
      have : vlen ((fun i => m.rnd (p.xyz i)) - p.xyz) ≤ vlen (τ • absV p.xyz) := by
        refine vlen_le_of_abs fun i => ?_
        simpa [absV] using hr (p.xyz i)
      rw [vlen_smul, vlen_absV, abs_of_nonneg h0] at this
      refine this.trans (mul_le_mul_of_nonneg_right ?_ (vlen_nonneg _))
      nlinarith

omit hA A0 in
/-- the stored axis -/
theorem normalizeAxisFl_near (hγ : m.γ ≤ 5 * τ) (h1 : τ ≤ 1 / 1000) {a : V3} (ha : a ≠ 0) (i : Fin 3) :
    |normalizeAxisFl m a i - normalizeAxis a i| ≤ 9 * τ := by
  have h0 : 0 ≤ τ := m.u_nonneg.trans hu
  have t2 : τ * τ ≤ 0.001 * τ := by nlinarith
  have r1 : ∀ i, Rel τ (m.rnd (a i)) (a i) := fun i => m.rel hu _
  have r2 : Rel τ (norm3 fun i => m.rnd (a i)) (norm3 a) := by
    have := vlen_rel (v := fun i => m.rnd (a i)) r1
    have e : ∀ v : V3, vlen v = norm3 v := fun v => by simp only [vlen, norm3, dot]; congr 1; ring
    rwa [e, e] at this
  have r3 : Rel (5 * τ) (m.norm fun i => m.rnd (a i)) (norm3 fun i => m.rnd (a i)) := by
    refine .of_abs (by positivity) ?_
    rw [abs_of_nonneg (norm3_nonneg _)]
    exact (m.norm_err _).trans (mul_le_mul_of_nonneg_right hγ (norm3_nonneg _))
  have r4 := (r3.trans r2).mono (show _ ≤ 6.01 * τ by nlinarith)
  have r5 := (r1 i).div r4 (d' := 6.1 * τ) (by linarith) (by nlinarith)
  have r6 := ((m.rel hu _).trans r5).mono (show _ ≤ 9 * τ by nlinarith [mul_nonneg h0 (mul_nonneg h0 h0)])
  have := r6.abs_sub
  refine this.trans ?_
  have hU := (axis_scaled a ha).1
  have hle : |a i / norm3 a| ≤ 1 := by
    rw [← sq_le_one_iff_abs_le_one]
    unfold IsUnitV at hU
    have := sq_nonneg (normalizeAxis a 0); have := sq_nonneg (normalizeAxis a 1); have := sq_nonneg (normalizeAxis a 2)
    show normalizeAxis a i ^ 2 ≤ 1
    fin_cases i
    · show normalizeAxis a 0 ^ 2 ≤ 1; linarith
    · show normalizeAxis a 1 ^ 2 ≤ 1; linarith
    · show normalizeAxis a 2 ^ 2 ≤ 1; linarith
  nlinarith

end

end PK
