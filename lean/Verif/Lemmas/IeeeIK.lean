import Verif.Model.IeeeIK
import Verif.Lemmas.Ieee

/-!
# Infinities and NaN in the pose error
-/

namespace PK
noncomputable section
open Classical

theorem Ieee.add_bad (m : Ieee) {a b : Fl} (h : a.isFinite = false ∨ b.isFinite = false) : (m.add a b).isFinite = false :=
  m.res_strict (add_strict h)
theorem Ieee.sub_bad (m : Ieee) {a b : Fl} (h : a.isFinite = false ∨ b.isFinite = false) : (m.sub a b).isFinite = false :=
  m.res_strict (sub_strict h)
theorem Ieee.times_bad (m : Ieee) {a b : Fl} (h : a.isFinite = false ∨ b.isFinite = false) : (m.times a b).isFinite = false :=
  m.res_strict (mulFl_strict h)

theorem neg_bad {a : Fl} (h : a.isFinite = false) : (Fl.neg a).isFinite = false := by
  cases a <;> simp_all [Fl.neg, Fl.isFinite]

/-- plus infinity or NaN -/
def Fl.Up (x : Fl) : Prop := x = .nan ∨ x = .pinf

theorem Fl.Up.bad {x : Fl} (h : x.Up) : x.isFinite = false := by
  rcases h with rfl | rfl <;> rfl

theorem up_add (m : Ieee) {a b : Fl} (h : a.Up ∨ b.Up) : (m.add a b).Up := by
  rcases h with (rfl | rfl) | (rfl | rfl)
  · exact .inl rfl
  · cases b <;> simp [Ieee.add, Fl.add, Ieee.res, Fl.Up]
  · cases a <;> simp [Ieee.add, Fl.add, Ieee.res, Fl.Up]
  · cases a <;> simp [Ieee.add, Fl.add, Ieee.res, Fl.Up]

theorem up_sub (m : Ieee) {a b : Fl} (h : a.Up ∨ (Fl.neg b).Up) : (m.sub a b).Up := up_add m h

theorem up_or_neg {x : Fl} (h : x.isFinite = false) : x.Up ∨ (Fl.neg x).Up := by
  cases x <;> simp_all [Fl.isFinite, Fl.Up, Fl.neg]

theorem argmaxI_up {f : Fin 4 → Fl} (h : ∃ k, (f k).Up) : (f (argmaxI f)).Up := by
  have step : ∀ b k, (f b).Up ∨ (f k).Up → (f (if Fl.beats (f k) (f b) then k else b)).Up := by
    intro b k h
    split
    · rename_i hb
      rcases h with (h | h) | h
      · exact absurd h hb.1
      · rcases hb.2 with hk | hk
        · exact .inl hk
        · rw [h] at hk; cases f k <;> simp_all [Fl.lt]
      · exact h
    · rename_i hb
      rcases h with h | h
      · exact h
      · by_contra hn
        apply hb
        refine ⟨fun e => hn (.inl e), ?_⟩
        rcases h with h | h
        · exact .inl h
        · right
          rw [h]
          cases hf : f b <;> simp_all [Fl.lt, Fl.Up]
  obtain ⟨k, hk⟩ := h
  simp only [argmaxI, List.foldl]
  fin_cases k
  · exact step _ _ (.inl (step _ _ (.inl (step _ _ (.inl hk)))))
  · exact step _ _ (.inl (step _ _ (.inl (step _ _ (.inr hk)))))
  · exact step _ _ (.inl (step _ _ (.inr hk)))
  · exact step _ _ (.inr hk)

theorem up_clamp {x : Fl} (h : x.Up) : (Fl.clampMin0 x).Up := by
  rcases h with rfl | rfl
  · exact .inl rfl
  · right; simp [Fl.clampMin0, Fl.max, Fl.lt]

theorem up_sqrt (m : IeeeRot) {x : Fl} (h : x.Up) : (m.sqrt x).Up := by
  have h1 := m.sqrt_strict x h.bad
  have h2 := m.sqrt_ne x
  cases hx : m.sqrt x <;> simp_all [Fl.isFinite, Fl.Up]

theorem qAbsI_up (m : IeeeRot) {M : Fin 3 → Fin 3 → Fl} {i : Fin 3} (h : (M i i).isFinite = false) : ∃ c, (qAbsI m M c).Up := by
  rcases up_or_neg h with h | h
  · refine ⟨0, up_sqrt m (up_clamp ?_)⟩
    show (m.toIeee.add (m.toIeee.add (m.toIeee.add (.fin 1) (M 0 0)) (M 1 1)) (M 2 2)).Up
    fin_cases i
    · exact up_add _ (.inl (up_add _ (.inl (up_add _ (.inr h)))))
    · exact up_add _ (.inl (up_add _ (.inr h)))
    · exact up_add _ (.inr h)
  · fin_cases i
    · refine ⟨2, up_sqrt m (up_clamp ?_)⟩
      exact up_sub _ (.inl (up_add _ (.inl (up_sub _ (.inr h)))))
    · refine ⟨1, up_sqrt m (up_clamp ?_)⟩
      exact up_sub _ (.inl (up_sub _ (.inr h)))
    · refine ⟨1, up_sqrt m (up_clamp ?_)⟩
      exact up_sub _ (.inr h)

theorem matrixToQuaternionI_bad (m : IeeeRot) {M : Fin 3 → Fin 3 → Fl} {i j : Fin 3} (h : (M i j).isFinite = false) :
    ∃ c, (matrixToQuaternionI m M c).isFinite = false := by
  obtain ⟨b, hb⟩ : ∃ b, b = argmaxI (qAbsI m M) := ⟨_, rfl⟩
  simp only [matrixToQuaternionI, ← hb]
  by_cases hij : i = j
  · subst hij
    have hq : (qAbsI m M b).isFinite = false := by rw [hb]; exact (argmaxI_up (qAbsI_up m h)).bad
    refine ⟨b, m.div_strict _ _ ?_⟩
    have hs : (m.toIeee.times (qAbsI m M b) (qAbsI m M b)).isFinite = false := m.toIeee.times_bad (.inl hq)
    fin_cases b <;> exact hs
  · have key : ∀ {x y : Fl}, x.isFinite = false ∨ y.isFinite = false →
        (m.toIeee.add x y).isFinite = false ∧ (m.toIeee.sub x y).isFinite = false ∧ (m.toIeee.add y x).isFinite = false ∧
          (m.toIeee.sub y x).isFinite = false := fun h =>
      ⟨m.toIeee.add_bad h, m.toIeee.sub_bad h, m.toIeee.add_bad h.symm, m.toIeee.sub_bad h.symm⟩
    fin_cases i <;> fin_cases j <;> first
      | exact absurd rfl hij
      | (have k1 := @key (M 1 0) (M 0 1) (by first | exact .inl h | exact .inr h)
         fin_cases b
         · exact ⟨3, m.div_strict _ _ k1.2.1⟩
         · exact ⟨2, m.div_strict _ _ k1.1⟩
         · exact ⟨1, m.div_strict _ _ k1.1⟩
         · exact ⟨0, m.div_strict _ _ k1.2.1⟩)
      | (have k1 := @key (M 0 2) (M 2 0) (by first | exact .inl h | exact .inr h)
         fin_cases b
         · exact ⟨2, m.div_strict _ _ k1.2.1⟩
         · exact ⟨3, m.div_strict _ _ k1.1⟩
         · exact ⟨0, m.div_strict _ _ k1.2.1⟩
         · exact ⟨1, m.div_strict _ _ k1.2.2.1⟩)
      | (have k1 := @key (M 2 1) (M 1 2) (by first | exact .inl h | exact .inr h)
         fin_cases b
         · exact ⟨1, m.div_strict _ _ k1.2.1⟩
         · exact ⟨0, m.div_strict _ _ k1.2.1⟩
         · exact ⟨3, m.div_strict _ _ k1.2.2.1⟩
         · exact ⟨2, m.div_strict _ _ k1.1⟩)

theorem rawMultiplyI_bad (m : Ieee) {p q : FQuat} (h : (∃ c, (p c).isFinite = false) ∨ ∃ c, (q c).isFinite = false) (c : Fin 4) :
    (quaternionRawMultiplyI m p q c).isFinite = false := by
  have l : ∀ {x y : Fl}, x.isFinite = false → (m.add x y).isFinite = false ∧ (m.sub x y).isFinite = false := fun h =>
    ⟨m.add_bad (.inl h), m.sub_bad (.inl h)⟩
  have r : ∀ {x y : Fl}, y.isFinite = false → (m.add x y).isFinite = false ∧ (m.sub x y).isFinite = false := fun h =>
    ⟨m.add_bad (.inr h), m.sub_bad (.inr h)⟩
  have s4 : ∀ {o1 o2 o3 : Fl → Fl → Fl} {x y z w : Fl}, (o1 = m.add ∨ o1 = m.sub) → (o2 = m.add ∨ o2 = m.sub) →
      (o3 = m.add ∨ o3 = m.sub) → (x.isFinite = false ∨ y.isFinite = false ∨ z.isFinite = false ∨ w.isFinite = false) →
      (o3 (o2 (o1 x y) z) w).isFinite = false := by
    have bl : ∀ {o : Fl → Fl → Fl}, (o = m.add ∨ o = m.sub) → ∀ {x y : Fl}, (x.isFinite = false ∨ y.isFinite = false) →
        (o x y).isFinite = false := by
      intro o ho x y h
      rcases ho with rfl | rfl
      · exact m.add_bad h
      · exact m.sub_bad h
    intro o1 o2 o3 x y z w h1 h2 h3 h
    rcases h with h | h | h | h
    · exact bl h3 (.inl (bl h2 (.inl (bl h1 (.inl h)))))
    · exact bl h3 (.inl (bl h2 (.inl (bl h1 (.inr h)))))
    · exact bl h3 (.inl (bl h2 (.inr h)))
    · exact bl h3 (.inr h)
  have hA : (m.add = m.add ∨ m.add = m.sub) := .inl rfl
  have hS : (m.sub = m.add ∨ m.sub = m.sub) := .inr rfl
  rcases h with ⟨k, h⟩ | ⟨k, h⟩
  · have t : ∀ y, (m.times (p k) y).isFinite = false := fun y => m.times_bad (.inl h)
    fin_cases c
    · exact s4 hS hS hS (by fin_cases k <;> simp_all)
    · exact s4 hA hA hS (by fin_cases k <;> simp_all)
    · exact s4 hS hA hA (by fin_cases k <;> simp_all)
    · exact s4 hA hS hA (by fin_cases k <;> simp_all)
  · have t : ∀ y, (m.times y (q k)).isFinite = false := fun y => m.times_bad (.inr h)
    fin_cases c
    · exact s4 hS hS hS (by fin_cases k <;> simp_all)
    · exact s4 hA hA hS (by fin_cases k <;> simp_all)
    · exact s4 hS hA hA (by fin_cases k <;> simp_all)
    · exact s4 hA hS hA (by fin_cases k <;> simp_all)

theorem multiplyI_bad (m : Ieee) {p q : FQuat} (h : (∃ c, (p c).isFinite = false) ∨ ∃ c, (q c).isFinite = false) (c : Fin 4) :
    (quaternionMultiplyI m p q c).isFinite = false := by
  unfold quaternionMultiplyI standardizeQuaternionI
  split
  · exact neg_bad (rawMultiplyI_bad m h c)
  · exact rawMultiplyI_bad m h c

theorem axisAngleI_bad (m : IeeeRot) {q : FQuat} (h : ∀ c, (q c).isFinite = false) (c : Fin 3) :
    (quaternionToAxisAngleI m q c).isFinite = false := by
  fin_cases c
  · exact m.div_strict _ _ (h 1)
  · exact m.div_strict _ _ (h 2)
  · exact m.div_strict _ _ (h 3)

/-- an infinity or NaN in the first three rows of the pose or of the target shows in the pose error -/
theorem deltaPoseI_bad (m : IeeeRot) {M T : FM4} {i : Fin 3} {j : Fin 4}
    (h : (M i.castSucc j).isFinite = false ∨ (T i.castSucc j).isFinite = false) :
    (∃ k : Fin 3, (deltaPoseI m M T (k.castLE (by norm_num))).isFinite = false) ∨
      ∀ k : Fin 3, (deltaPoseI m M T (k.natAdd 3)).isFinite = false := by
  obtain rfl | ⟨j, rfl⟩ := j.eq_castSucc_or_eq_last.symm
  · left
    refine ⟨i, ?_⟩
    have := m.toIeee.sub_bad (a := T i.castSucc 3) (b := M i.castSucc 3) h.symm
    fin_cases i <;> exact this
  · right
    have hq : (∃ c, (matrixToQuaternionI m (rotI T) c).isFinite = false) ∨
        ∃ c, (quaternionInvertI m.toIeee (matrixToQuaternionI m (rotI M)) c).isFinite = false := by
      rcases h with h | h
      · right
        obtain ⟨c, hc⟩ := matrixToQuaternionI_bad m (M := rotI M) (i := i) (j := j) h
        exact ⟨c, m.toIeee.times_bad (.inl hc)⟩
      · left
        exact matrixToQuaternionI_bad m (M := rotI T) (i := i) (j := j) h
    have := axisAngleI_bad m (multiplyI_bad m.toIeee hq)
    intro k
    have hk := this k
    fin_cases k <;> exact hk

/-! ## the formats -/

/-- the operations of the pose error in an IEEE format -/
def ieeeRot (p : ℕ) (e E : ℤ) (hp : 2 ≤ p) (he : e ≤ 0) (hE : 3 ≤ E) : IeeeRot where
  toIeee := ieee p e E hp he hE
  div := ieeeDiv p e E
  div_strict a b h := by
    refine ieeeRes_strict ?_
    cases a <;> cases b <;> simp_all [AD.div, Fl.isFinite] <;> split_ifs <;> simp
  div_nan b := by cases b <;> simp [ieeeDiv, AD.div, ieeeRes]
  sqrt := ieeeSqrt p e E
  sqrt_strict x h := by
    refine ieeeRes_strict ?_
    cases x <;> simp_all [AD.sqrt, Fl.isFinite]
  sqrt_ne x := by
    unfold ieeeSqrt
    cases x with
    | fin x =>
      by_cases hx : x < 0
      · simp [AD.sqrt, hx, ieeeRes]
      · simp only [AD.sqrt, hx, if_false, ieeeRes, ieeeRnd]
        split_ifs with h1 h2
        · simp
        · simp
        · exfalso
          have h0 : √x = 0 := le_antisymm (not_lt.1 h2) (Real.sqrt_nonneg _)
          apply h1
          rw [h0, ieeeNear_zero, abs_zero]
          have : (2 : ℝ) ^ (1 - (p : ℤ)) ≤ 2 ^ (0 : ℤ) := zpow_le_zpow_right₀ (by norm_num) (by omega)
          rw [zpow_zero] at this
          have h2 : (0 : ℝ) < 2 ^ E := by positivity
          nlinarith
    | _ => simp [AD.sqrt, ieeeRes]
  norm3 := ieeeNorm3 p e E
  atan2 y x := ieeeRes p e E (Fl.atan2F y x)

/-- `torch.float32` -/
def float32Rot : IeeeRot := ieeeRot 24 (-126) 127 (by norm_num) (by norm_num) (by norm_num)

end
end PK
