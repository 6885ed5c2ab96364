import Verif.Lemmas.Tape
import Verif.Lemmas.AxisAngle
import Mathlib.Analysis.SpecialFunctions.Trigonometric.Deriv
import Mathlib.Analysis.SpecialFunctions.Trigonometric.InverseDeriv
import Mathlib.Analysis.SpecialFunctions.Trigonometric.ArctanDeriv
import Mathlib.Analysis.SpecialFunctions.Sqrt
import Mathlib.Analysis.Calculus.Deriv.Inv
import Mathlib.Analysis.Calculus.Deriv.Abs
import Mathlib.Analysis.SpecialFunctions.Complex.LogDeriv

/-!
# PyTorch's rules for single operations are correct where the operation is differentiable
-/

namespace PK.AD
open Asymptotics Filter Topology Finset
open scoped Classical

variable {ι : Type} [Fintype ι] {nr : NormRule} {e : ι → ℝ} {w : ℝ}

theorem good_of {op : Op ι} {L : (ι → ℝ) →L[ℝ] ℝ} (l : List (ι × ℝ)) (hf : HasFDerivAt (fun e => op.evalR e) L e)
    (hv : op.eval (up e) = .fin (op.evalR e)) (hp : op.pull nr (up e) (.fin (op.evalR e)) (.fin w) = upL l)
    (hl : ∀ d, pair l d = w * L d) : op.Good nr e w where
  val := hv
  big := hf.isBigO_sub
  pull := ⟨l, hp, by
    refine (hf.isLittleO.const_mul_left w).congr_left fun e' => ?_
    rw [hl]; ring⟩

theorem pair_one (a : ι) (x : ℝ) (d : ι → ℝ) : pair [(a, x)] d = x * d a := by simp [pair]

/-- operations of one number -/
theorem good_unary {op : Op ι} {a : ι} {φ : ℝ → ℝ} {φ' : ℝ} (h : ∀ e : ι → ℝ, op.evalR e = φ (e a)) (hf : HasDerivAt φ φ' (e a))
    (hv : op.eval (up e) = .fin (op.evalR e)) (hp : op.pull nr (up e) (.fin (op.evalR e)) (.fin w) = [(a, .fin (w * φ'))]) :
    op.Good nr e w := by
  have hpr : HasFDerivAt (fun e : ι → ℝ => e a) (ContinuousLinearMap.proj a : (ι → ℝ) →L[ℝ] ℝ) e :=
    (ContinuousLinearMap.proj a : (ι → ℝ) →L[ℝ] ℝ).hasFDerivAt
  have := hf.comp_hasFDerivAt e hpr
  refine good_of [(a, w * φ')] (L := φ' • ContinuousLinearMap.proj a) ?_ hv hp ?_
  · refine this.congr_of_eventuallyEq ?_
    exact Eventually.of_forall fun e' => h e'
  · intro d
    rw [pair_one]
    simp only [ContinuousLinearMap.smul_apply, ContinuousLinearMap.proj_apply, smul_eq_mul]
    ring

/-- operations of two numbers -/
theorem good_binary {op : Op ι} {a b : ι} {φ : ℝ × ℝ → ℝ} {x y : ℝ} (h : ∀ e : ι → ℝ, op.evalR e = φ (e a, e b))
    (hf : HasFDerivAt φ (x • ContinuousLinearMap.fst ℝ ℝ ℝ + y • ContinuousLinearMap.snd ℝ ℝ ℝ) (e a, e b))
    (hv : op.eval (up e) = .fin (op.evalR e))
    (hp : op.pull nr (up e) (.fin (op.evalR e)) (.fin w) = [(a, .fin (w * x)), (b, .fin (w * y))]) : op.Good nr e w := by
  have hpr : HasFDerivAt (fun e : ι → ℝ => (e a, e b))
      ((ContinuousLinearMap.proj a : (ι → ℝ) →L[ℝ] ℝ).prod (ContinuousLinearMap.proj b)) e :=
    ((ContinuousLinearMap.proj a : (ι → ℝ) →L[ℝ] ℝ).hasFDerivAt).prodMk ((ContinuousLinearMap.proj b : (ι → ℝ) →L[ℝ] ℝ).hasFDerivAt)
  have := hf.comp e hpr
  refine good_of [(a, w * x), (b, w * y)] (this.congr_of_eventuallyEq (Eventually.of_forall fun e' => h e')) hv hp ?_
  intro d
  simp [pair]
  ring

theorem good_lin (c : ℝ) (l : List (ℝ × ι)) : (Op.lin c l).Good nr e w := by
  have hL : ∀ (l : List (ℝ × ι)) (e : ι → ℝ), (l.map fun p => p.1 * e p.2).sum
      = (l.map fun p => p.1 • (ContinuousLinearMap.proj p.2 : (ι → ℝ) →L[ℝ] ℝ)).sum e := by
    intro l e
    induction l with
    | nil => simp
    | cons p l ih => simp [ih]
  refine good_of (l.map fun p => (p.2, w * p.1)) (L := (l.map fun p => p.1 • (ContinuousLinearMap.proj p.2 : (ι → ℝ) →L[ℝ] ℝ)).sum)
    ?_ ?_ ?_ ?_
  · have := (ContinuousLinearMap.hasFDerivAt (l.map fun p => p.1 • (ContinuousLinearMap.proj p.2 : (ι → ℝ) →L[ℝ] ℝ)).sum (x := e)).const_add c
    refine this.congr_of_eventuallyEq (Eventually.of_forall fun e' => ?_)
    simp only [Op.evalR]
    rw [hL]
  · simp only [Op.eval, Op.evalR, up, mul]
    have : (l.map fun p => Fl.fin (p.1 * e p.2)) = (l.map fun p => p.1 * e p.2).map Fl.fin := by rw [List.map_map]; rfl
    rw [this, fin_list_sum, fin_add]
  · simp only [Op.pull, upL, List.map_map, mul]
    rfl
  · intro d
    rw [← hL]
    unfold pair
    rw [← List.sum_map_mul_left, List.map_map]
    congr 1
    apply List.map_congr_left
    intro p _
    simp only [Function.comp]
    ring

theorem good_mul (a b : ι) : (Op.mul a b).Good nr e w := by
  refine good_binary (φ := fun p => p.1 * p.2) (x := e b) (y := e a) (fun e => rfl) ?_ rfl rfl
  have := (hasFDerivAt_fst (𝕜 := ℝ) (p := (e a, e b))).mul (hasFDerivAt_snd (𝕜 := ℝ) (p := (e a, e b)))
  refine this.congr_fderiv ?_
  ext <;> simp

theorem good_div {a b : ι} (h : e b ≠ 0) : (Op.div a b).Good nr e w := by
  refine good_binary (φ := fun p => p.1 / p.2) (x := 1 / e b) (y := -(e a / e b / e b)) (fun e => rfl) ?_ ?_ ?_
  · have h1 := (hasFDerivAt_fst (𝕜 := ℝ) (p := (e a, e b)))
    have h2 := (hasDerivAt_inv h).comp_hasFDerivAt (e a, e b) (hasFDerivAt_snd (𝕜 := ℝ) (p := (e a, e b)))
    have := h1.mul h2
    refine (this.congr_of_eventuallyEq (Eventually.of_forall fun p => div_eq_mul_inv _ _)).congr_fderiv ?_
    ext
    · simp
    · simp; field_simp
  · simp [Op.eval, Op.evalR, div, up, h]
  · simp only [Op.pull, up, div, h, if_false, Fl.neg, mul]
    rw [show w / e b = w * (1 / e b) by ring, show -w * (e a / e b / e b) = w * -(e a / e b / e b) by ring]

theorem good_recip {a : ι} (h : e a ≠ 0) : (Op.recip a).Good nr e w := by
  refine good_unary (φ := fun x => 1 / x) (φ' := -(1 / e a * (1 / e a))) (fun e => rfl) ?_ ?_ ?_
  · have := hasDerivAt_inv h
    simp only [one_div]
    refine this.congr_deriv ?_
    rw [← mul_inv, sq]
  · simp [Op.eval, Op.evalR, div, up, h]
  · simp only [Op.pull, Op.evalR, Fl.neg, mul]
    congr 3
    ring

theorem good_sqrt {a : ι} (h : 0 < e a) : (Op.sqrt a).Good nr e w := by
  have hs : Real.sqrt (e a) ≠ 0 := (Real.sqrt_pos.2 h).ne'
  refine good_unary (φ := Real.sqrt) (φ' := 1 / (2 * Real.sqrt (e a))) (fun e => rfl) (Real.hasDerivAt_sqrt h.ne') ?_ ?_
  · simp [Op.eval, Op.evalR, sqrt, up, h.le, not_lt.2 h.le]
  · have : (2 : ℝ) * Real.sqrt (e a) ≠ 0 := by positivity
    simp only [Op.pull, Op.evalR, mul, div, this, if_false]
    congr 3
    ring

theorem good_sq (a : ι) : (Op.sq a).Good nr e w := by
  refine good_unary (φ := fun x => x * x) (φ' := 2 * e a) (fun e => rfl) ?_ rfl rfl
  have := (hasDerivAt_id (e a)).mul (hasDerivAt_id (e a))
  refine this.congr_deriv ?_
  simp only [id]; ring

theorem good_sin (a : ι) : (Op.sin a).Good nr e w :=
  good_unary (φ := Real.sin) (φ' := Real.cos (e a)) (fun _ => rfl) (Real.hasDerivAt_sin _) rfl rfl

theorem good_cos (a : ι) : (Op.cos a).Good nr e w :=
  good_unary (φ := Real.cos) (φ' := -Real.sin (e a)) (fun _ => rfl) (Real.hasDerivAt_cos _) rfl rfl

theorem good_acos {a : ι} (h1 : -1 < e a) (h2 : e a < 1) : (Op.acos a).Good nr e w := by
  have hp : 0 < 1 - e a ^ 2 := by nlinarith
  refine good_unary (φ := Real.arccos) (φ' := -(1 / Real.sqrt (1 - e a ^ 2))) (fun e => rfl)
    (Real.hasDerivAt_arccos h1.ne' h2.ne) ?_ ?_
  · simp [Op.eval, Op.evalR, acos, up, not_lt.2 h1.le, not_lt.2 h2.le]
  · have hs : Real.sqrt (1 - e a ^ 2) ≠ 0 := (Real.sqrt_pos.2 hp).ne'
    have hq : 1 + -(e a * e a) = 1 - e a ^ 2 := by ring
    simp only [Op.pull, up, mul, Fl.neg, fin_add, hq, sqrt, not_lt.2 hp.le, if_false, div, hs]

theorem good_abs {a : ι} (h : e a ≠ 0) : (Op.abs a).Good nr e w := by
  rcases lt_or_gt_of_ne h with h | h
  · refine good_unary (φ := fun x => |x|) (φ' := -1) (fun e => rfl) (hasDerivAt_abs_neg h) rfl ?_
    simp [Op.pull, sgn, up, mul, h, not_lt.2 h.le]
  · refine good_unary (φ := fun x => |x|) (φ' := 1) (fun e => rfl) (hasDerivAt_abs_pos h) rfl ?_
    simp [Op.pull, sgn, up, mul, h]

theorem atan2_of_pos {y x : ℝ} (hy : 0 < y) : PK.atan2 y x = Real.pi / 2 - Real.arctan (x / y) := by
  have hs : 0 < Real.sqrt (1 + (x / y) ^ 2) := by positivity
  have := PK.atan2_smul (r := y * Real.sqrt (1 + (x / y) ^ 2)) (h := Real.pi / 2 - Real.arctan (x / y)) (by positivity)
    (by have := Real.arctan_lt_pi_div_two (x / y); have := Real.pi_pos; linarith)
    (by have := Real.neg_pi_div_two_lt_arctan (x / y); have := Real.pi_pos; linarith)
  rw [Real.sin_pi_div_two_sub, Real.cos_pi_div_two_sub, Real.cos_arctan, Real.sin_arctan] at this
  rw [← this]
  congr 1 <;> field_simp

theorem good_atan2 {y x : ι} (h : 0 < e y) : (Op.atan2 y x).Good nr e w := by
  have hr : e y * e y + e x * e x ≠ 0 := by
    have := mul_self_nonneg (e x); have := mul_pos h h; positivity
  refine good_binary (φ := fun p => PK.atan2 p.1 p.2) (x := e x * (1 / (e y * e y + e x * e x)))
    (y := -e y * (1 / (e y * e y + e x * e x))) (fun e => rfl) ?_ rfl ?_
  · have h1 := (hasFDerivAt_fst (𝕜 := ℝ) (p := (e y, e x)))
    have h2 := (hasDerivAt_inv h.ne').comp_hasFDerivAt (e y, e x) h1
    have h3 := (hasFDerivAt_snd (𝕜 := ℝ) (p := (e y, e x))).mul h2
    have h4 := ((Real.hasDerivAt_arctan (e x * (e y)⁻¹)).comp_hasFDerivAt (e y, e x) h3).const_sub (Real.pi / 2)
    refine (h4.congr_of_eventuallyEq ?_).congr_fderiv ?_
    · have : ∀ᶠ p : ℝ × ℝ in 𝓝 (e y, e x), 0 < p.1 := (continuous_fst.tendsto (e y, e x)).eventually (lt_mem_nhds h)
      filter_upwards [this] with p hp
      rw [atan2_of_pos hp, div_eq_mul_inv]; rfl
    · have hy := h.ne'
      ext
      · simp; field_simp
      · simp; field_simp
  · simp only [Op.pull, up, mul, fin_add, div, hr, if_false, Fl.neg]

/-- off the negative real axis -/
theorem hasFDerivAt_atan2 {y x : ℝ} (h : 0 < x ∨ y ≠ 0) : HasFDerivAt (fun p : ℝ × ℝ => PK.atan2 p.1 p.2)
    ((x * (1 / (y * y + x * x))) • ContinuousLinearMap.fst ℝ ℝ ℝ + (-y * (1 / (y * y + x * x))) • ContinuousLinearMap.snd ℝ ℝ ℝ) (y, x) := by
  have hz : (⟨x, y⟩ : ℂ) ∈ Complex.slitPlane := h
  have h1 := (Complex.hasStrictDerivAt_log hz).hasDerivAt.hasFDerivAt.restrictScalars ℝ
  let L : ℝ × ℝ →L[ℝ] ℂ := Complex.equivRealProdCLM.symm.toContinuousLinearMap.comp
    ((ContinuousLinearMap.snd ℝ ℝ ℝ).prod (ContinuousLinearMap.fst ℝ ℝ ℝ))
  have hL : ∀ p : ℝ × ℝ, L p = ⟨p.2, p.1⟩ := fun p => by
    simp only [L, ContinuousLinearMap.comp_apply, ContinuousLinearMap.prod_apply]
    apply Complex.ext <;> simp
  rw [show HasFDerivAt Complex.log _ (⟨x, y⟩ : ℂ) ↔ HasFDerivAt Complex.log
    (ContinuousLinearMap.restrictScalars ℝ (ContinuousLinearMap.toSpanSingleton ℂ (⟨x, y⟩ : ℂ)⁻¹)) (L (y, x)) by rw [hL]] at h1
  have h2 := h1.comp (y, x) L.hasFDerivAt
  have h3 := Complex.imCLM.hasFDerivAt.comp (y, x) h2
  refine (h3.congr_of_eventuallyEq (Eventually.of_forall fun p => ?_)).congr_fderiv ?_
  · simp only [Function.comp, hL, Complex.imCLM_apply, Complex.log_im, PK.atan2]
  · have hn : y * y + x * x ≠ 0 := by
      rcases h with h | h
      · have := mul_pos h h; have := mul_self_nonneg y; positivity
      · have := mul_self_pos.2 h; have := mul_self_nonneg x; positivity
    ext
    · simp [hL, Complex.normSq, Complex.inv_re, Complex.inv_im]; field_simp; try ring
    · simp [hL, Complex.normSq, Complex.inv_re, Complex.inv_im]; field_simp; try ring

theorem good_atan2_slit {y x : ι} (h : 0 < e x ∨ e y ≠ 0) : (Op.atan2 y x).Good nr e w := by
  have hr : e y * e y + e x * e x ≠ 0 := by
    rcases h with h | h
    · have := mul_pos h h; have := mul_self_nonneg (e y); positivity
    · have := mul_self_pos.2 h; have := mul_self_nonneg (e x); positivity
  refine good_binary (φ := fun p => PK.atan2 p.1 p.2) (x := e x * (1 / (e y * e y + e x * e x)))
    (y := -e y * (1 / (e y * e y + e x * e x))) (fun e => rfl) (hasFDerivAt_atan2 h) rfl ?_
  simp only [Op.pull, up, mul, fin_add, div, hr, if_false, Fl.neg]

theorem max_fin (x c : ℝ) : Fl.max (.fin x) (.fin c) = .fin (max x c) := by
  show (if Fl.lt (.fin x) (.fin c) then Fl.fin c else Fl.fin x) = _
  by_cases h : Fl.lt (.fin x) (.fin c)
  · rw [if_pos h, max_eq_right (le_of_lt h)]
  · rw [if_neg h, max_eq_left (not_lt.1 h)]

theorem min_fin (x c : ℝ) : Fl.min (.fin x) (.fin c) = .fin (min x c) := by
  show (if Fl.lt (.fin c) (.fin x) then Fl.fin c else Fl.fin x) = _
  by_cases h : Fl.lt (.fin c) (.fin x)
  · rw [if_pos h, min_eq_right (le_of_lt h)]
  · rw [if_neg h, min_eq_left (not_lt.1 h)]

theorem good_clampMin {c : ℝ} {a : ι} (h : e a ≠ c) : (Op.clampMin c a).Good nr e w := by
  rcases lt_or_gt_of_ne h with h | h
  · refine good_unary (φ := fun x => max x c) (φ' := 0) (fun e => rfl) ?_ (max_fin _ _) ?_
    · refine (hasDerivAt_const (e a) c).congr_of_eventuallyEq ?_
      filter_upwards [gt_mem_nhds h] with x hx using max_eq_right hx.le
    · simp [Op.pull, Fl.le, up, not_le.2 h]
  · refine good_unary (φ := fun x => max x c) (φ' := 1) (fun e => rfl) ?_ (max_fin _ _) ?_
    · refine (hasDerivAt_id (e a)).congr_of_eventuallyEq ?_
      filter_upwards [lt_mem_nhds h] with x hx using max_eq_left hx.le
    · simp [Op.pull, Fl.le, up, h.le]

theorem good_clamp {lo hi : ℝ} {a : ι} (h1 : lo < e a) (h2 : e a < hi) : (Op.clamp lo hi a).Good nr e w := by
  refine good_unary (φ := fun x => min (max x lo) hi) (φ' := 1) (fun e => rfl) ?_ ?_ ?_
  · refine (hasDerivAt_id (e a)).congr_of_eventuallyEq ?_
    filter_upwards [lt_mem_nhds h1, gt_mem_nhds h2] with x hx hx'
    rw [max_eq_left hx.le, min_eq_left hx'.le]; rfl
  · simp only [Op.eval, Fl.clamp, up, max_fin, min_fin, Op.evalR]
  · simp [Op.pull, Fl.le, up, h1.le, h2.le]

theorem good_maxC {c : ℝ} {a : ι} (h : e a ≠ c) : (Op.maxC a c).Good nr e w := by
  rcases lt_or_gt_of_ne h with h | h
  · refine good_unary (φ := fun x => max x c) (φ' := 0) (fun e => rfl) ?_ (max_fin _ _) ?_
    · refine (hasDerivAt_const (e a) c).congr_of_eventuallyEq ?_
      filter_upwards [gt_mem_nhds h] with x hx using max_eq_right hx.le
    · simp [Op.pull, Fl.lt, up, h]
  · refine good_unary (φ := fun x => max x c) (φ' := 1) (fun e => rfl) ?_ (max_fin _ _) ?_
    · refine (hasDerivAt_id (e a)).congr_of_eventuallyEq ?_
      filter_upwards [lt_mem_nhds h] with x hx using max_eq_left hx.le
    · simp [Op.pull, Fl.lt, up, not_lt.2 h.le, h.ne']

/-- where the gradient of the result is zero, ties do not matter -/
theorem good_maxC_zero (c : ℝ) (a : ι) : (Op.maxC a c).Good nr e 0 where
  val := max_fin _ _
  big := by
    have h1 : (fun e' : ι → ℝ => (Op.maxC a c).evalR e' - (Op.maxC a c).evalR e) =O[𝓝 e] fun e' => e' a - e a := by
      refine IsBigO.of_bound 1 (Eventually.of_forall fun e' => ?_)
      simp only [Op.evalR, Real.norm_eq_abs, one_mul]
      exact abs_max_sub_max_le_abs _ _ _
    exact h1.trans (isBigO_pi.1 (isBigO_refl (fun e' => e' - e) (𝓝 e)) a)
  pull := ⟨[(a, 0)], by
    simp only [Op.pull, up, upL, List.map, div]
    split_ifs <;> simp_all, by simp [pair]⟩

theorem good_norm3 {a b c : ι} (h : ![e a, e b, e c] ≠ 0) : (Op.norm3 a b c).Good nr e w := by
  have hpos : 0 < e a * e a + e b * e b + e c * e c := by
    by_contra hc
    apply h
    have := mul_self_nonneg (e a); have := mul_self_nonneg (e b); have := mul_self_nonneg (e c)
    have h1 : e a = 0 := mul_self_eq_zero.1 (by linarith)
    have h2 : e b = 0 := mul_self_eq_zero.1 (by linarith)
    have h3 : e c = 0 := mul_self_eq_zero.1 (by linarith)
    funext i; fin_cases i <;> simp [h1, h2, h3]
  set n := Real.sqrt (e a * e a + e b * e b + e c * e c) with hn
  have hn0 : n ≠ 0 := (Real.sqrt_pos.2 hpos).ne'
  have hev : ∀ e : ι → ℝ, (Op.norm3 a b c).evalR e = Real.sqrt (e a * e a + e b * e b + e c * e c) := fun e => rfl
  have hp : ∀ i, HasFDerivAt (fun e : ι → ℝ => e i) (ContinuousLinearMap.proj i : (ι → ℝ) →L[ℝ] ℝ) e := fun i =>
    (ContinuousLinearMap.proj i : (ι → ℝ) →L[ℝ] ℝ).hasFDerivAt
  have h1 := ((((hp a).mul (hp a)).add ((hp b).mul (hp b))).add ((hp c).mul (hp c))).sqrt hpos.ne'
  refine good_of [(a, w * (e a / n)), (b, w * (e b / n)), (c, w * (e c / n))]
    (h1.congr_of_eventuallyEq (Eventually.of_forall hev)) rfl ?_ ?_
  · rw [hev, ← hn]
    have : (Fl.fin n = Fl.fin 0) = False := by simp [hn0]
    cases nr
    · simp only [Op.pull, normBack, up, upL, List.map, div, mul, hn0, this, if_false]
      rw [mul_div_left_comm, mul_div_left_comm (e b), mul_div_left_comm (e c)]
    · simp only [Op.pull, normBack, up, upL, List.map, div, mul, hn0, this, if_false]
  · intro d
    simp only [pair, List.map, List.sum_cons, List.sum_nil, ContinuousLinearMap.smul_apply, ContinuousLinearMap.add_apply,
      ContinuousLinearMap.proj_apply, smul_eq_mul, Pi.add_apply, Pi.mul_apply]
    rw [← hn]
    field_simp
    ring

theorem good_pick {f : (ι → Fl) → ι} (h : ∀ᶠ e' in 𝓝 e, f (up e') = f (up e)) : (Op.pick f).Good nr e w := by
  have hpr : HasFDerivAt (fun e : ι → ℝ => e (f (up e)))
      (ContinuousLinearMap.proj (f (up e)) : (ι → ℝ) →L[ℝ] ℝ) e := by
    have := (ContinuousLinearMap.proj (f (up e)) : (ι → ℝ) →L[ℝ] ℝ).hasFDerivAt (x := e)
    refine this.congr_of_eventuallyEq ?_
    filter_upwards [h] with e' he'
    simp [he']
  refine good_of [(f (up e), w)] hpr rfl rfl ?_
  intro d
  simp [pair_one]

end PK.AD
