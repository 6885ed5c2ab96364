import Verif.Model.IeeeGrad
import Verif.Lemmas.Ieee
import Verif.Spec.IeeeGrad

/-!
# Infinities, NaN and overflow in the analytical backward pass
-/

namespace PK
open Spec

/-! ## what is not finite stays so -/

theorem addI_strict (m : Ieee) {a b : Fl} (h : a.isFinite = false ∨ b.isFinite = false) : (m.add a b).isFinite = false :=
  m.res_strict (add_strict h)

theorem subI_strict (m : Ieee) {a b : Fl} (h : a.isFinite = false ∨ b.isFinite = false) : (m.sub a b).isFinite = false :=
  m.res_strict (sub_strict h)

theorem timesI_strict (m : Ieee) {a b : Fl} (h : a.isFinite = false ∨ b.isFinite = false) : (m.times a b).isFinite = false :=
  m.res_strict (mulFl_strict h)

theorem dot3I_strict (m : Ieee) {a b : Fin 3 → Fl} {i : Fin 3} (h : (a i).isFinite = false ∨ (b i).isFinite = false) :
    (dot3I m a b).isFinite = false := by
  unfold dot3I
  fin_cases i
  · exact addI_strict m (.inl (addI_strict m (.inl (timesI_strict m h))))
  · exact addI_strict m (.inl (addI_strict m (.inr (timesI_strict m h))))
  · exact addI_strict m (.inr (timesI_strict m h))

/-- a component of the cross product other than the `i`-th -/
theorem crossI_strict (m : Ieee) {a b : Fin 3 → Fl} {i : Fin 3} (h : (a i).isFinite = false ∨ (b i).isFinite = false) :
    ∃ k, (crossI m a b k).isFinite = false := by
  fin_cases i
  · refine ⟨1, subI_strict m ?_⟩
    rcases h with h | h
    · exact .inr (timesI_strict m (.inl h))
    · exact .inl (timesI_strict m (.inr h))
  · refine ⟨2, subI_strict m ?_⟩
    rcases h with h | h
    · exact .inr (timesI_strict m (.inl h))
    · exact .inl (timesI_strict m (.inr h))
  · refine ⟨0, subI_strict m ?_⟩
    rcases h with h | h
    · exact .inr (timesI_strict m (.inl h))
    · exact .inl (timesI_strict m (.inr h))

theorem tauLinkI_strict (m : Ieee) {T G : FM4} {i k : Fin 3} (h : (rotI T i k).isFinite = false ∨ (rotI G i k).isFinite = false) :
    ∃ c, (tauLinkI m T G c).isFinite = false := by
  rcases h with h | h
  · have hM : ∀ j, (dot3I m (rotI T i) (rotI G j)).isFinite = false := fun j => dot3I_strict m (.inl h)
    fin_cases i
    · exact ⟨1, subI_strict m (.inr (hM 2))⟩
    · exact ⟨0, subI_strict m (.inl (hM 2))⟩
    · exact ⟨0, subI_strict m (.inr (hM 1))⟩
  · have hM : ∀ j, (dot3I m (rotI T j) (rotI G i)).isFinite = false := fun j => dot3I_strict m (.inr h)
    fin_cases i
    · exact ⟨1, subI_strict m (.inl (hM 2))⟩
    · exact ⟨0, subI_strict m (.inr (hM 2))⟩
    · exact ⟨0, subI_strict m (.inl (hM 1))⟩

theorem foldl_add_strict (m : Ieee) (l : List Fl) {a : Fl} (h : a.isFinite = false ∨ ∃ x ∈ l, x.isFinite = false) :
    (l.foldl m.add a).isFinite = false := by
  induction l generalizing a with
  | nil => simpa using h
  | cons x l ih =>
    rw [List.foldl_cons]
    refine ih ?_
    rcases h with h | ⟨y, hy, h⟩
    · exact .inl (addI_strict m (.inl h))
    · rcases List.mem_cons.1 hy with rfl | hy
      · exact .inl (addI_strict m (.inr h))
      · exact .inr ⟨y, hy, h⟩

/-- the factor 0 of the mask does not hide an infinity or NaN -/
theorem maskSumI_strict (m : Ieee) {row : List ℝ} {xs : List (Fin 3 → Fl)} (hl : xs.length ≤ row.length) {l : ℕ} {x : Fin 3 → Fl} {i : Fin 3}
    (hx : xs[l]? = some x) (h : (x i).isFinite = false) : (maskSumI m row xs i).isFinite = false := by
  refine foldl_add_strict m _ (.inr ⟨m.times (.fin (row.getD l 0)) (x i), ?_, timesI_strict m (.inr h)⟩)
  have hl' : l < xs.length := (List.getElem?_eq_some_iff.1 hx).1
  rw [List.mem_iff_getElem?]
  refine ⟨l, ?_⟩
  rw [List.getElem?_zipWith, hx, List.getElem?_eq_getElem (hl'.trans_le hl)]
  simp [List.getD, List.getElem?_eq_getElem (hl'.trans_le hl)]

/-! ## finite numbers of bounded size -/

theorem Spec.Fb.finite {c : ℝ} {x : Fl} (h : Fb c x) : x.isFinite = true := by
  obtain ⟨y, rfl, -⟩ := h; rfl

theorem Spec.Fb.mono {c c' : ℝ} {x : Fl} (h : Fb c x) (hc : c ≤ c') : Fb c' x := by
  obtain ⟨y, rfl, hy⟩ := h; exact ⟨y, rfl, hy.trans hc⟩

theorem Spec.Fb.nonneg {c : ℝ} {x : Fl} (h : Fb c x) : 0 ≤ c := by
  obtain ⟨y, -, hy⟩ := h; exact (abs_nonneg _).trans hy

theorem rnd_fb (m : Ieee) {x c : ℝ} (hx : |x| ≤ c) (hc : c ≤ m.big) : Fb ((1 + m.u) * c + m.η) (m.rnd x) := by
  obtain ⟨y, e, hy⟩ := m.rnd_ok x (hx.trans hc)
  refine ⟨y, e, ?_⟩
  have h1 := abs_add_le (y - x) x
  rw [sub_add_cancel] at h1
  have := mul_le_mul_of_nonneg_left hx m.u_nonneg
  linarith

theorem Spec.Fb.add (m : Ieee) {a b : ℝ} {x y : Fl} (hx : Fb a x) (hy : Fb b y) (hb : a + b ≤ m.big) : Fb ((1 + m.u) * (a + b) + m.η) (m.add x y) := by
  obtain ⟨x, rfl, hx⟩ := hx
  obtain ⟨y, rfl, hy⟩ := hy
  exact rnd_fb m ((abs_add_le _ _).trans (add_le_add hx hy)) hb

theorem Spec.Fb.sub (m : Ieee) {a b : ℝ} {x y : Fl} (hx : Fb a x) (hy : Fb b y) (hb : a + b ≤ m.big) : Fb ((1 + m.u) * (a + b) + m.η) (m.sub x y) := by
  obtain ⟨x, rfl, hx⟩ := hx
  obtain ⟨y, rfl, hy⟩ := hy
  have : |x + -y| ≤ a + b := (abs_add_le _ _).trans (by rw [abs_neg]; exact add_le_add hx hy)
  exact rnd_fb m this hb

theorem Spec.Fb.times (m : Ieee) {a b : ℝ} {x y : Fl} (hx : Fb a x) (hy : Fb b y) (hb : a * b ≤ m.big) : Fb ((1 + m.u) * (a * b) + m.η) (m.times x y) := by
  have h0 := hx.nonneg
  obtain ⟨x, rfl, hx⟩ := hx
  obtain ⟨y, rfl, hy⟩ := hy
  have : |x * y| ≤ a * b := by rw [abs_mul]; exact mul_le_mul hx hy (abs_nonneg _) h0
  exact rnd_fb m this hb

/-- crude bounds for arithmetics with `u ≤ 1` in units of a number `P` that `η` does not exceed -/
theorem Spec.Fb.add' (m : Ieee) (hu : m.u ≤ 1) {P a b : ℝ} (hP : m.η ≤ P) {x y : Fl} (hx : Fb (a * P) x) (hy : Fb (b * P) y) (hb : (a + b) * P ≤ m.big) :
    Fb ((2 * (a + b) + 1) * P) (m.add x y) := by
  refine (Fb.add m hx hy (by linarith)).mono ?_
  have h0 := hx.nonneg; have h1 := hy.nonneg
  nlinarith

theorem Spec.Fb.sub' (m : Ieee) (hu : m.u ≤ 1) {P a b : ℝ} (hP : m.η ≤ P) {x y : Fl} (hx : Fb (a * P) x) (hy : Fb (b * P) y) (hb : (a + b) * P ≤ m.big) :
    Fb ((2 * (a + b) + 1) * P) (m.sub x y) := by
  refine (Fb.sub m hx hy (by linarith)).mono ?_
  have h0 := hx.nonneg; have h1 := hy.nonneg
  nlinarith

theorem Spec.Fb.times' (m : Ieee) (hu : m.u ≤ 1) {P a b c : ℝ} (hP : m.η ≤ P) {x y : Fl} (hx : Fb a x) (hy : Fb b y) (hc : a * b = c * P)
    (hb : c * P ≤ m.big) : Fb ((2 * c + 1) * P) (m.times x y) := by
  refine (Fb.times m hx hy (by linarith)).mono ?_
  have h0 := mul_nonneg hx.nonneg hy.nonneg
  rw [hc] at h0 ⊢
  nlinarith

theorem dot3I_fb (m : Ieee) (hu : m.u ≤ 1) {P a b c : ℝ} (hP : m.η ≤ P) (hc1 : 0 ≤ c) {x y : Fin 3 → Fl} (hx : ∀ i, Fb a (x i)) (hy : ∀ i, Fb b (y i))
    (hc : a * b = c * P) (hb : (12 * c + 8) * P ≤ m.big) : Fb ((20 * c + 15) * P) (dot3I m x y) := by
  have hP0 : 0 ≤ P := m.η_nonneg.trans hP
  have hcP : 0 ≤ c * P := mul_nonneg hc1 hP0
  have t : ∀ i, Fb ((2 * c + 1) * P) (m.times (x i) (y i)) := fun i => Fb.times' m hu hP (hx i) (hy i) hc (by nlinarith)
  have s1 := Fb.add' m hu hP (t 0) (t 1) (by nlinarith)
  have s2 := Fb.add' m hu hP s1 (t 2) (by nlinarith)
  exact s2.mono (by nlinarith)

theorem crossI_fb (m : Ieee) (hu : m.u ≤ 1) {P a b c : ℝ} (hP : m.η ≤ P) (hc1 : 0 ≤ c) {x y : Fin 3 → Fl} (hx : ∀ i, Fb a (x i)) (hy : ∀ i, Fb b (y i))
    (hc : a * b = c * P) (hb : (12 * c + 8) * P ≤ m.big) (i : Fin 3) : Fb ((8 * c + 5) * P) (crossI m x y i) := by
  have hP0 : 0 ≤ P := m.η_nonneg.trans hP
  have hcP : 0 ≤ c * P := mul_nonneg hc1 hP0
  have t : ∀ i j, Fb ((2 * c + 1) * P) (m.times (x i) (y j)) := fun i j => Fb.times' m hu hP (hx i) (hy j) hc (by nlinarith)
  have s : ∀ i j k l, Fb ((8 * c + 5) * P) (m.sub (m.times (x i) (y j)) (m.times (x k) (y l))) := fun i j k l =>
    (Fb.sub' m hu hP (t i j) (t k l) (by nlinarith)).mono (by nlinarith)
  fin_cases i <;> exact s ..

theorem foldl_fb (m : Ieee) {c B : ℝ} (hB : B ≤ m.big) (l : List Fl) (hl : ∀ x ∈ l, Fb c x) {a : ℝ} {s : Fl} (hs : Fb a s)
    (hc : 0 ≤ c) (hle : (1 + m.u) ^ l.length * (a + l.length * (c + m.η)) ≤ B) :
    Fb ((1 + m.u) ^ l.length * (a + l.length * (c + m.η))) (l.foldl m.add s) := by
  induction l generalizing a s with
  | nil => simpa using hs
  | cons x l ih =>
    have hu := m.u_nonneg
    have hη := m.η_nonneg
    have ha := hs.nonneg
    have hX : 1 ≤ (1 + m.u) ^ l.length := one_le_pow₀ (by linarith)
    rw [List.foldl_cons]
    have e : (1 + m.u) ^ (x :: l).length * (a + (x :: l).length * (c + m.η)) =
        (1 + m.u) ^ l.length * ((1 + m.u) * (a + c + m.η) + (1 + m.u) * (l.length * (c + m.η))) := by
      rw [List.length_cons, pow_succ]; push_cast; ring
    rw [e] at hle ⊢
    have hn : (0 : ℝ) ≤ l.length * (c + m.η) := by positivity
    have hmono : (1 + m.u) ^ l.length * (((1 + m.u) * (a + c) + m.η) + l.length * (c + m.η)) ≤
        (1 + m.u) ^ l.length * ((1 + m.u) * (a + c + m.η) + (1 + m.u) * (l.length * (c + m.η))) := by
      refine mul_le_mul_of_nonneg_left ?_ (by linarith)
      nlinarith [mul_nonneg hu hη, mul_nonneg hu hn]
    have h1 : Fb ((1 + m.u) * (a + c) + m.η) (m.add s x) := by
      refine Fb.add m hs (hl x (by simp)) (le_trans ?_ (hle.trans hB))
      have h2 : a + c ≤ (1 + m.u) * (a + c + m.η) + (1 + m.u) * (l.length * (c + m.η)) := by
        nlinarith [mul_nonneg hu hn, mul_nonneg hu hη, mul_nonneg hu (add_nonneg ha hc)]
      have h3 : 0 ≤ (1 + m.u) * (a + c + m.η) + (1 + m.u) * (l.length * (c + m.η)) := by positivity
      nlinarith
    exact (ih (fun y hy => hl y (by simp [hy])) h1 (hmono.trans hle)).mono hmono

/-- `mask @ x` for a mask of zeros and ones -/
theorem maskSumI_fb (m : Ieee) (hu : m.u ≤ 1) {P c N : ℝ} (hP : m.η ≤ P) (hc : 0 ≤ c) {row : List ℝ} (hr : ∀ r ∈ row, |r| ≤ 1)
    {xs : List (Fin 3 → Fl)} (hx : ∀ x ∈ xs, ∀ i, Fb (c * P) (x i)) (hN : xs.length ≤ N) (hp : (1 + m.u) ^ xs.length ≤ 2)
    (hb : (4 * c + 4) * N * P ≤ m.big) (hN1 : 1 ≤ N) (i : Fin 3) : Fb ((4 * c + 4) * N * P) (maskSumI m row xs i) := by
  have hP0 : 0 ≤ P := m.η_nonneg.trans hP
  have hcP : 0 ≤ c * P := mul_nonneg hc hP0
  have hu0 := m.u_nonneg
  have hη := m.η_nonneg
  have ht : ∀ y ∈ List.zipWith (fun r x => m.times (.fin r) (x i)) row xs, Fb ((2 * c + 1) * P) y := by
    intro y hy
    obtain ⟨l, hl⟩ := List.mem_iff_getElem?.1 hy
    rw [List.getElem?_zipWith] at hl
    rcases hr1 : row[l]? with _ | r
    · rw [hr1] at hl; simp at hl
    rcases hx1 : xs[l]? with _ | x
    · rw [hr1, hx1] at hl; simp at hl
    rw [hr1, hx1] at hl
    obtain rfl := Option.some.inj hl
    refine Fb.times' m hu hP (⟨r, rfl, hr r (List.mem_of_getElem? hr1)⟩ : Fb 1 _) (hx x (List.mem_of_getElem? hx1) i) (by ring) ?_
    nlinarith [mul_nonneg hcP (sub_nonneg.2 hN1), mul_nonneg hP0 (sub_nonneg.2 hN1)]
  have hlen : (List.zipWith (fun r x => m.times (.fin r) (x i)) row xs).length ≤ xs.length := by
    rw [List.length_zipWith]; exact min_le_right _ _
  set L := List.zipWith (fun r x => m.times (.fin r) (x i)) row xs with hL
  have hp' : (1 + m.u) ^ L.length ≤ 2 := (pow_le_pow_right₀ (by linarith) hlen).trans hp
  have hLN : (L.length : ℝ) ≤ N := le_trans (by exact_mod_cast hlen) hN
  have hle : (1 + m.u) ^ L.length * (0 + L.length * ((2 * c + 1) * P + m.η)) ≤ (4 * c + 4) * N * P := by
    have h1 : 0 + L.length * ((2 * c + 1) * P + m.η) ≤ N * ((2 * c + 2) * P) := by
      rw [zero_add]
      refine mul_le_mul hLN (by linarith) (by positivity) (by linarith)
    calc _ ≤ 2 * (N * ((2 * c + 2) * P)) := mul_le_mul hp' h1 (by positivity) (by norm_num)
      _ = _ := by ring
  exact (foldl_fb m hb L ht (⟨0, rfl, by simp⟩ : Fb 0 _) (by positivity) hle).mono hle

end PK
