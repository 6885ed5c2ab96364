import Verif.Model.TapeRot
import Verif.Lemmas.TapeOps
import Verif.Props.FloatRot

namespace PK.AD
open Asymptotics Filter Topology Finset Sum
open scoped Classical

theorem q2m_good {nr : NormRule} {q : Fin 4 → ℝ} (h : q 0 * q 0 + q 1 * q 1 + q 2 * q 2 + q 3 * q 3 ≠ 0) (g : Fin 3 × Fin 3 → ℝ) :
    q2m.Good nr q g := by
  refine ⟨⟨⟨⟨⟨⟨⟨⟨trivial, fun p w _ => ?_⟩, fun p w _ => good_mul _ _⟩, fun p w _ => good_lin _ _⟩, fun p w _ => good_mul _ _⟩,
    fun p w _ => good_lin _ _⟩, fun p w _ => good_recip ?_⟩, fun p w _ => good_lin _ _⟩, fun p w _ => good_mul _ _⟩
  · beta_reduce; split_ifs <;> exact good_lin _ _
  · simp [Op.evalR]
    convert h using 1
    ring

theorem q2m_runR (q : Quat) : q2m.runR q.get = fun p => quaternionToMatrix q p.1 p.2 := by
  funext ⟨i, j⟩
  fin_cases i <;> fin_cases j <;> simp [q2m, Prog.runR, Op.evalR, q2mInner, Quat.get, quaternionToMatrix, Quat.normSq] <;> ring_nf <;> simp

theorem aa33_good {nr : NormRule} (x : Fin 3 ⊕ Unit → ℝ) (g : Fin 3 × Fin 3 → ℝ) : aa33.Good nr x g := by
  refine ⟨⟨⟨⟨⟨⟨⟨trivial, fun p w _ => ?_⟩, fun p w _ => good_mul _ _⟩, fun p w _ => good_mul _ _⟩, fun p w _ => good_mul _ _⟩,
    fun p w _ => good_sin _⟩, fun p w _ => good_lin _ _⟩, fun p w _ => good_cos _⟩
  beta_reduce; split_ifs <;> exact good_lin _ _

theorem aa33_runR (axis : V3) (theta : ℝ) :
    aa33.runR (Sum.elim axis fun _ => theta) = fun p => axisAndAngleToMatrix33 axis theta p.1 p.2 := by
  funext ⟨i, j⟩
  fin_cases i <;> fin_cases j <;> simp [aa33, Prog.runR, Op.evalR, aa33Sin, axisAndAngleToMatrix33] <;> ring_nf <;> simp

/-- the vector of the sums l.120-130 -/
def sums (m : Fin 3 × Fin 3 → ℝ) (c : Fin 4) : ℝ := 1 + (diagSign c 0 * m (0, 0) + diagSign c 1 * m (1, 1) + diagSign c 2 * m (2, 2))

theorem argmaxFl_up (a : Fin 4 → ℝ) : argmaxFl (up a) = argmax4 a := by
  simp only [argmaxFl, argmax4, up, Fl.le]
  congr!

/-- `q_abs` -/
noncomputable def qAbsOf (m : Fin 3 × Fin 3 → ℝ) (c : Fin 4) : ℝ := Real.sqrt (max (sums m c) 0)

/-- `quat_by_rijk` -/
noncomputable def rijk (m : Fin 3 × Fin 3 → ℝ) (p : Fin 4 × Fin 4) : ℝ :=
  if p.1 = p.2 then qAbsOf m p.1 * qAbsOf m p.1 else ((m2qOff p).map fun t => t.1 * m t.2).sum

/-- `quat_candidates` -/
noncomputable def candOf (m : Fin 3 × Fin 3 → ℝ) (p : Fin 4 × Fin 4) : ℝ := rijk m p / (2 * max (qAbsOf m p.1) 0.1)

theorem m2qWith_runR (sel : Option (Fin 4)) (m : Fin 3 × Fin 3 → ℝ) :
    (m2qWith sel).runR m = fun k => candOf m (sel.getD (argmax4 (qAbsOf m)), k) := by
  rw [m2qWith, Prog.runR_stage (sums m) (fun c => by simp [Op.evalR, sums]; ring),
    Prog.runR_stage (fun c => max (sums m c) 0) (fun c => rfl), Prog.runR_stage (qAbsOf m) (fun c => rfl), m2qTail, m2qPick,
    Prog.runR_stage (rijk m) (fun p => ?_), Prog.runR_stage (fun c => max (qAbsOf m c) 0.1) (fun c => rfl),
    Prog.runR_stage (fun c => 2 * max (qAbsOf m c) 0.1) (fun c => by simp [Op.evalR]),
    Prog.runR_stage (candOf m) (fun p => rfl), Prog.runR_stage (fun k => candOf m (sel.getD (argmax4 (qAbsOf m)), k)) (fun k => ?_)]
  · rfl
  · have := argmaxFl_up (qAbsOf m)
    show candOf m (sel.getD (argmaxFl (up (qAbsOf m))), k) = _
    rw [this]
  · by_cases h : p.1 = p.2
    · simp only [rijk, h, if_true, Op.evalR]; rfl
    · simp only [rijk, h, if_false, Op.evalR, List.map_map, zero_add]
      rfl

theorem m2q_runR (m : M3) : m2q.runR (fun p => m p.1 p.2) = (matrixToQuaternion m).get := by
  rw [m2q, m2qWith_runR]
  have hq : qAbsOf (fun p => m p.1 p.2) = ![sqrtPositivePart (1 + m 0 0 + m 1 1 + m 2 2),
      sqrtPositivePart (1 + m 0 0 - m 1 1 - m 2 2),
      sqrtPositivePart (1 - m 0 0 + m 1 1 - m 2 2),
      sqrtPositivePart (1 - m 0 0 - m 1 1 + m 2 2)] := by
    funext c
    fin_cases c <;> simp [qAbsOf, sums, diagSign, sqrtPositivePart] <;> ring_nf
  funext k
  simp only [Option.getD_none, candOf, matrixToQuaternion, rijk, hq]
  generalize argmax4 _ = b
  fin_cases b <;> fin_cases k <;> simp [Quat.get, m2qOff] <;> ring


theorem m2qPick_good {nr : NormRule} (b : Fin 4) (e : (M2Q ⊕ Fin 4 × Fin 4) ⊕ Fin 4 → ℝ) (h : ∀ c, e (inr c) ≠ 0) (g : Fin 4 → ℝ) :
    (m2qPick (some b)).Good nr e g := by
  refine Prog.good_stage (fun c => 2 * e (inr c)) (fun c => by simp [Op.evalR]) ?_ fun c w _ => good_lin _ _
  refine Prog.good_stage _ (fun p => rfl) ?_ fun p w _ => good_div ?_
  · exact Prog.good_stage _ (fun k => rfl) trivial fun k w _ => good_pick (Eventually.of_forall fun _ => rfl)
  · simpa using h p.1

theorem m2qPick_runR (b : Fin 4) (e : (M2Q ⊕ Fin 4 × Fin 4) ⊕ Fin 4 → ℝ) :
    (m2qPick (some b)).runR e = fun k => e (inl (inr (b, k))) / (2 * e (inr b)) := by
  rw [m2qPick, Prog.runR_stage (fun c => 2 * e (inr c)) (fun c => by simp [Op.evalR])]
  rfl

/-- the tail, for a fixed candidate, at any `q_abs` -/
theorem m2qTail_good {nr : NormRule} (b : Fin 4) (e : M2Q → ℝ) (h : 0.1 < e (inr b)) (g : Fin 4 → ℝ) :
    (m2qTail (some b)).Good nr e g := by
  refine Prog.good_stage _ (fun p => rfl) ?_ fun p w _ => ?_
  · refine Prog.good_stage (fun c => max (e (inr c)) 0.1) (fun c => rfl) (m2qPick_good b _ (fun c => ?_) g) fun c w hw => ?_
    · exact (lt_of_lt_of_le (by norm_num) (le_max_right _ _ : (0.1 : ℝ) ≤ max (e (inr c)) 0.1)).ne'
    · by_cases hc : c = b
      · subst hc
        exact good_maxC (by simpa using h.ne')
      · have : w = 0 := by
          rw [Prog.back_zero (m2qPick_good b _ (fun c => ?_) g)] at hw
          · simpa using hw.symm
          · intro e' he'
            rw [m2qPick_runR, m2qPick_runR]
            funext k
            rw [he' _ (by simp), he' _ (by simpa using Ne.symm hc)]
          · exact (lt_of_lt_of_le (by norm_num) (le_max_right _ _ : (0.1 : ℝ) ≤ max (e (inr c)) 0.1)).ne'
        subst this
        exact good_maxC_zero _ _
  · beta_reduce
    split_ifs
    · exact good_sq _
    · exact good_lin _ _

theorem m2qTail_runR (b : Fin 4) (e : M2Q → ℝ) : (m2qTail (some b)).runR e = fun k =>
    (if b = k then e (inr b) * e (inr b) else ((m2qOff (b, k)).map fun t => t.1 * e (inl (inl (inl t.2)))).sum) / (2 * max (e (inr b)) 0.1) := by
  rw [m2qTail, Prog.runR_stage (fun p : Fin 4 × Fin 4 => if p.1 = p.2 then e (inr p.1) * e (inr p.1)
    else ((m2qOff p).map fun t => t.1 * e (inl (inl (inl t.2)))).sum) (fun p => ?_),
    Prog.runR_stage (fun c => max (e (inr c)) 0.1) (fun c => rfl), m2qPick_runR]
  · rfl
  · by_cases h : p.1 = p.2
    · simp only [h, if_true, Op.evalR]
    · simp only [h, if_false, Op.evalR, List.map_map, zero_add]
      rfl

/-- only the selected candidate passes a gradient to `q_abs` -/
theorem m2qTail_back {nr : NormRule} (b c : Fin 4) (hc : c ≠ b) (e : M2Q → ℝ) (h : 0.1 < e (inr b)) (g : Fin 4 → ℝ) :
    (m2qTail (some b)).back nr (up e) (up g) (inr c) = .fin 0 := by
  refine Prog.back_zero (m2qTail_good b e h g) _ fun e' he' => ?_
  rw [m2qTail_runR, m2qTail_runR]
  funext k
  rw [he' _ (by simpa using Ne.symm hc)]
  congr 2
  congr 1
  apply List.map_congr_left
  intro t _
  rw [he' _ (by simp)]

/-- fixing the index chosen by `argmax` does not change the gradient -/
theorem m2q_back {nr : NormRule} (m : Fin 3 × Fin 3 → ℝ) (g : Fin 4 → Fl) :
    m2q.back nr (up m) g = (m2qWith (some (argmax4 (qAbsOf m)))).back nr (up m) g := by
  unfold m2q m2qWith
  refine Prog.back_congr (up (sums m)) (fun c => ?_) (fun c => ?_) (fun _ _ => rfl) ?_
  · rw [(good_lin (nr := nr) (e := m) (w := 0) _ _).val]
    simp [Op.evalR, sums]; ring
  · rw [(good_lin (nr := nr) (e := m) (w := 0) _ _).val]
    simp [Op.evalR, sums]; ring
  refine Prog.back_congr (up fun c => max (sums m c) 0) (fun c => max_fin _ _) (fun c => max_fin _ _) (fun _ _ => rfl) ?_
  have hs : ∀ c, AD.sqrt (.fin (max (sums m c) 0)) = .fin (qAbsOf m c) := fun c => by
    simp [AD.sqrt, qAbsOf]
  refine Prog.back_congr (up (qAbsOf m)) (fun c => hs c) (fun c => hs c) (fun _ _ => rfl) ?_
  unfold m2qTail
  refine Prog.back_congr _ (fun c => rfl) (fun c => rfl) (fun _ _ => rfl) ?_
  refine Prog.back_congr _ (fun c => rfl) (fun c => rfl) (fun _ _ => rfl) ?_
  unfold m2qPick
  refine Prog.back_congr _ (fun c => rfl) (fun c => rfl) (fun _ _ => rfl) ?_
  refine Prog.back_congr _ (fun c => rfl) (fun c => rfl) (fun _ _ => rfl) ?_
  have ha := argmaxFl_up (qAbsOf m)
  refine Prog.back_congr _ (fun c => rfl) (fun c => ?_) (fun k x => ?_) rfl
  · simp only [Op.eval, Option.getD_some, Option.getD_none, Sum.elim_inl, Sum.elim_inr]
    erw [ha]
  · simp only [Op.pull, Option.getD_some, Option.getD_none, Sum.elim_inl, Sum.elim_inr]
    erw [ha]

/-- entries of a matrix -/
abbrev ent (M : M3) : Fin 3 × Fin 3 → ℝ := fun p => M p.1 p.2

theorem sums_eq {q : Quat} (hq : Spec.IsUnitQ q) {R : M3} (hR : quaternionToMatrix q = R) (c : Fin 4) : sums (ent R) c = 4 * q.get c ^ 2 := by
  obtain ⟨h00, -, -, -, h11, -, -, -, h22⟩ := rot_entries hq R hR
  have hn : q.w ^ 2 + q.x ^ 2 + q.y ^ 2 + q.z ^ 2 = 1 := by unfold Spec.IsUnitQ at hq; linarith
  fin_cases c <;> simp [sums, diagSign, Quat.get, ent, h00, h11, h22] <;> first | ring1 | linear_combination (-4 : ℝ) * hn

theorem m2qOff_eq {q : Quat} (hq : Spec.IsUnitQ q) {R : M3} (hR : quaternionToMatrix q = R) {b k : Fin 4} (h : b ≠ k) :
    ((m2qOff (b, k)).map fun t => t.1 * ent R t.2).sum = 4 * q.get b * q.get k := by
  obtain ⟨h00, h01, h02, h10, h11, h12, h20, h21, h22⟩ := rot_entries hq R hR
  fin_cases b <;> fin_cases k <;> simp [m2qOff, Quat.get, ent, h01, h02, h10, h12, h20, h21] at h ⊢ <;> ring

theorem qAbs_eq {q : Quat} (hq : Spec.IsUnitQ q) {R : M3} (hR : quaternionToMatrix q = R) (c : Fin 4) : qAbsOf (ent R) c = 2 * |q.get c| := by
  rw [qAbsOf, sums_eq hq hR, max_eq_left (by positivity), show 4 * q.get c ^ 2 = (2 * |q.get c|) ^ 2 by rw [mul_pow, sq_abs]; ring,
    Real.sqrt_sq (by positivity)]

/-- the selected component is large -/
theorem qAbs_max {q : Quat} (hq : Spec.IsUnitQ q) {R : M3} (hR : quaternionToMatrix q = R) : 1 ≤ qAbsOf (ent R) (argmax4 (qAbsOf (ent R))) := by
  obtain ⟨c, hc⟩ := exists_big hq
  refine le_trans ?_ (argmax4_spec _ c)
  rw [qAbs_eq hq hR]
  have : 1 ≤ (2 * |q.get c|) ^ 2 := by rw [mul_pow, sq_abs]; linarith
  exact (one_le_sq_iff₀ (by positivity)).1 this

/-- the candidate `b` of a rotation -/
theorem candOf_eq {q : Quat} (hq : Spec.IsUnitQ q) {R : M3} (hR : quaternionToMatrix q = R) {b : Fin 4} (hb : 0.05 ≤ q.get b) (k : Fin 4) :
    candOf (ent R) (b, k) = q.get k := by
  have hb0 : 0 < q.get b := lt_of_lt_of_le (by norm_num) hb
  have h1 : qAbsOf (ent R) b = 2 * q.get b := by rw [qAbs_eq hq hR, abs_of_pos hb0]
  have h2 : max (qAbsOf (ent R) b) 0.1 = 2 * q.get b := by rw [h1]; exact max_eq_left (by norm_num at hb ⊢; linarith)
  have h3 : rijk (ent R) (b, k) = 4 * q.get b * q.get k := by
    unfold rijk
    by_cases h : b = k
    · subst h; simp only [if_true]; rw [h1]; ring
    · simp only [h, if_false]; exact m2qOff_eq hq hR h
  rw [candOf, h3, h2]
  field_simp
  ring

theorem m2q_nan {nr : NormRule} {q : Quat} (hq : Spec.IsUnitQ q) {R : M3} (hR : quaternionToMatrix q = R) {c : Fin 4} (hc : q.get c = 0)
    (g : Fin 4 → ℝ) (i : Fin 3) : m2q.back nr (up (ent R)) (up g) (i, i) = .nan := by
  rw [m2q_back]
  set b := argmax4 (qAbsOf (ent R)) with hb
  have hbig := qAbs_max hq hR
  rw [← hb] at hbig
  have hcb : c ≠ b := by
    rintro rfl
    rw [qAbs_eq hq hR, hc] at hbig
    norm_num at hbig
  have hs0 : sums (ent R) c = 0 := by rw [sums_eq hq hR, hc]; norm_num
  unfold m2qWith
  refine Prog.back_nan_pull (up (sums (ent R))) (fun c => ?_) c ?_
  · rw [(good_lin (nr := nr) (e := ent R) (w := 0) _ _).val]
    simp [Op.evalR, sums]; ring
  have key : ∀ p : Prog ((Fin 3 × Fin 3 ⊕ Fin 4)) (Fin 4), p.back nr (Sum.elim (up (ent R)) (up (sums (ent R)))) (up g) (inr c) = .nan →
      ((i, i), Fl.nan) ∈ (Op.lin 1 [(diagSign c 0, ((0, 0) : Fin 3 × Fin 3)), (diagSign c 1, (1, 1)), (diagSign c 2, (2, 2))]).pull nr (up (ent R))
        (up (sums (ent R)) c) (p.back nr (Sum.elim (up (ent R)) (up (sums (ent R)))) (up g) (inr c)) := by
    intro p hp
    rw [hp]
    simp only [Op.pull, List.map]
    fin_cases i <;> simp [AD.mul]
  apply key
  refine Prog.back_nan_pull (up fun c => max (sums (ent R) c) 0) (fun c => max_fin _ _) c ?_
  simp only [Op.pull, Sum.elim_inr, up, hs0, Fl.le, le_refl, if_true, List.mem_singleton, Prod.mk.injEq, true_and]
  symm
  have hs : ∀ c, AD.sqrt (.fin (max (sums (ent R) c) 0)) = .fin (qAbsOf (ent R) c) := fun c => by
    simp [AD.sqrt, qAbsOf]
  refine Prog.back_nan_pull (up (qAbsOf (ent R))) (fun c => hs c) c ?_
  have h0 := m2qTail_back (nr := nr) b c hcb
    (Sum.elim (Sum.elim (Sum.elim (ent R) (sums (ent R))) fun c => max (sums (ent R) c) 0) (qAbsOf (ent R)))
    (by simp only [Sum.elim_inr]; exact lt_of_lt_of_le (by norm_num) hbig) g
  rw [up_elim, up_elim, up_elim] at h0
  simp only [Op.pull]
  rw [h0]
  have : qAbsOf (ent R) c = 0 := by rw [qAbs_eq hq hR, hc]; norm_num
  simp [up, this, AD.mul, AD.div, infTimes]

theorem m2qWith_good {nr : NormRule} {m : Fin 3 × Fin 3 → ℝ} {b : Fin 4} (h : ∀ c, 0 < sums m c) (hb : 0.1 < qAbsOf m b) (g : Fin 4 → ℝ) :
    (m2qWith (some b)).Good nr m g := by
  refine Prog.good_stage (sums m) (fun c => by simp [Op.evalR, sums]; ring) ?_ fun c w _ => good_lin _ _
  refine Prog.good_stage (fun c => max (sums m c) 0) (fun c => rfl) ?_ fun c w _ => good_clampMin (h c).ne'
  refine Prog.good_stage (qAbsOf m) (fun c => rfl) ?_ fun c w _ => good_sqrt (lt_max_of_lt_left (h c))
  exact m2qTail_good b _ hb g

/-- the gradient of `matrix_to_quaternion` where all four components are non-zero -/
theorem m2q_deriv {nr : NormRule} {R : ℝ → M3} {q : ℝ → Quat} (hq : ∀ t, Spec.IsUnitQ (q t)) (hR : ∀ t, quaternionToMatrix (q t) = R t)
    (h0 : matrixToQuaternion (R 0) = q 0) (hcont : ∀ c, ContinuousAt (fun t => (q t).get c) 0) (hne : ∀ c, (q 0).get c ≠ 0)
    {R' : M3} (hR' : ∀ i j, HasDerivAt (fun t => R t i j) (R' i j) 0) (g : Fin 4 → ℝ) :
    ∃ G : Fin 3 × Fin 3 → ℝ, m2q.back nr (up (ent (R 0))) (up g) = up G ∧
      HasDerivAt (fun t => ∑ k, g k * (q t).get k) (∑ p, G p * R' p.1 p.2) 0 := by
  rw [m2q_back]
  set b := argmax4 (qAbsOf (ent (R 0))) with hb
  have hbig := qAbs_max (hq 0) (hR 0)
  rw [← hb] at hbig
  have hs : ∀ c, 0 < sums (ent (R 0)) c := fun c => by
    rw [sums_eq (hq 0) (hR 0)]
    have := hne c
    positivity
  obtain ⟨-, G, hG, hD⟩ := Prog.sound nr _ _ _ (m2qWith_good (nr := nr) hs (lt_of_lt_of_le (by norm_num) hbig) g)
  refine ⟨G, hG, ?_⟩
  -- the component `b` of the result is positive
  have hqb : 0.05 < (q 0).get b := by
    have h1 : candOf (ent (R 0)) (b, b) = (q 0).get b := by
      have h2 := congrFun (m2q_runR (R 0)) b
      rw [m2q, m2qWith_runR] at h2
      rw [← h0, ← h2]
      simp only [Option.getD_none, hb]
    have h2 : 0 ≤ (q 0).get b := by
      rw [← h1, candOf, rijk, if_pos rfl]
      have := mul_self_nonneg (qAbsOf (ent (R 0)) b)
      positivity
    rw [qAbs_eq (hq 0) (hR 0), abs_of_nonneg h2] at hbig
    norm_num
    linarith
  have hev : ∀ᶠ t in 𝓝 (0 : ℝ), (m2qWith (some b)).runR (ent (R t)) = (q t).get := by
    filter_upwards [(hcont b).eventually (lt_mem_nhds hqb)] with t ht
    rw [m2qWith_runR]
    funext k
    exact candOf_eq (hq t) (hR t) ht.le k
  have hcurve : HasDerivAt (fun t => ent (R t)) (fun p => R' p.1 p.2) 0 := hasDerivAt_pi.2 fun p => hR' p.1 p.2
  have := hD.comp_hasDerivAt (0 : ℝ) hcurve
  have h2 := this.congr_of_eventuallyEq (f₁ := fun t => ∑ k, g k * (q t).get k) (by
    filter_upwards [hev] with t ht
    simp only [Function.comp, ht])
  refine h2.congr_deriv ?_
  simp [ContinuousLinearMap.sum_apply]

theorem good_small {ι : Type} [Fintype ι] {nr : NormRule} {e : ι → ℝ} {w : ℝ} {a x y : ι} (h : |e a| ≠ 1e-6) :
    (Op.pick fun env => if smallAngle (env a) then x else y).Good nr e w := by
  apply good_pick
  have hc : ContinuousAt (fun e' : ι → ℝ => |e' a|) e := ((continuous_apply a).abs).continuousAt
  have hs : ∀ e' : ι → ℝ, smallAngle (up e' a) ↔ |e' a| < 1e-6 := fun _ => Iff.rfl
  rcases lt_or_gt_of_ne h with h | h
  · filter_upwards [hc.eventually (gt_mem_nhds h)] with e' he'
    rw [if_pos ((hs e').2 he'), if_pos ((hs e).2 h)]
  · filter_upwards [hc.eventually (lt_mem_nhds h)] with e' he'
    rw [if_neg fun h => not_lt.2 (le_of_lt he') ((hs e').1 h), if_neg fun h' => not_lt.2 (le_of_lt h) ((hs e).1 h')]

theorem small_eval {ι : Type} {e : ι → ℝ} {a x y : ι} :
    (Op.pick fun env => if smallAngle (env a) then x else y).evalR e = if |e a| < 1e-6 then e x else e y := by
  have hs : smallAngle (up e a) ↔ |e a| < 1e-6 := Iff.rfl
  simp only [Op.evalR]
  by_cases h : |e a| < 1e-6
  · rw [if_pos (hs.2 h), if_pos h]
  · rw [if_neg fun h' => h (hs.1 h'), if_neg h]

theorem q2a_good {nr : NormRule} {q : Fin 4 → ℝ} (hv : ![q 1, q 2, q 3] ≠ 0) (ha : 2 * PK.atan2 (PK.norm3 ![q 1, q 2, q 3]) (q 0) ≠ 1e-6)
    (g : Fin 3 → ℝ) : q2a.Good nr q g := by
  set n := PK.norm3 ![q 1, q 2, q 3] with hn
  set h := PK.atan2 n (q 0) with hh
  have hn0 : 0 < n := lt_of_le_of_ne (norm3_nonneg _) fun h => hv (norm3_eq_zero.1 h.symm)
  have hh1 : h = Real.pi / 2 - Real.arctan (q 0 / n) := atan2_of_pos hn0
  have hh0 : 0 < h := by
    have := Real.arctan_lt_pi_div_two (q 0 / n); linarith
  have hhp : h < Real.pi := by
    have := Real.neg_pi_div_two_lt_arctan (q 0 / n); linarith
  refine Prog.good_stage (fun _ => n) (fun _ => rfl) ?_ fun _ w _ => good_norm3 hv
  refine Prog.good_stage (fun _ => h) (fun _ => rfl) ?_ fun _ w _ => good_atan2 hn0
  refine Prog.good_stage (fun _ => 2 * h) (fun _ => by simp [Op.evalR]) ?_ fun _ w _ => good_lin _ _
  refine Prog.good_stage (fun _ => 2 * h * (2 * h)) (fun _ => rfl) ?_ fun _ w _ => good_mul _ _
  refine Prog.good_stage (fun _ => 0.5 - 2 * h * (2 * h) / 48) (fun _ => by simp [Op.evalR]; ring) ?_ fun _ w _ => good_lin _ _
  refine Prog.good_stage (fun _ => Real.sin h) (fun _ => rfl) ?_ fun _ w _ => good_sin _
  refine Prog.good_stage (fun _ => Real.sin h / (2 * h)) (fun _ => rfl) ?_ fun _ w _ => good_div (by
    simp only [Sum.elim_inl, Sum.elim_inr]; positivity)
  set f := if |2 * h| < 1e-6 then 0.5 - 2 * h * (2 * h) / 48 else Real.sin h / (2 * h) with hf
  have hf0 : f ≠ 0 := by
    rw [hf]
    split_ifs with hs
    · rw [abs_of_pos (by positivity)] at hs
      have : 2 * h * (2 * h) ≤ 1 := by nlinarith
      norm_num; linarith
    · have := Real.sin_pos_of_pos_of_lt_pi hh0 hhp
      positivity
  refine Prog.good_stage (fun _ => f) (fun _ => small_eval) ?_ fun _ w _ => good_small ?_
  · exact Prog.good_stage _ (fun _ => rfl) trivial fun k w _ => good_div hf0
  · simp only [Sum.elim_inl, Sum.elim_inr]
    rwa [abs_of_pos (by positivity)]

theorem q2a_runR (q : Quat) : q2a.runR q.get = quaternionToAxisAngle q := by
  rw [q2a, Prog.runR_stage (fun _ => PK.norm3 ![q.x, q.y, q.z]) (fun _ => rfl)]
  set n := PK.norm3 ![q.x, q.y, q.z] with hn
  rw [Prog.runR_stage (fun _ => PK.atan2 n q.w) (fun _ => rfl)]
  set h := PK.atan2 n q.w with hh
  rw [q2aHalf, Prog.runR_stage (fun _ => 2 * h) (fun _ => by simp [Op.evalR]), Prog.runR_stage (fun _ => 2 * h * (2 * h)) (fun _ => rfl),
    Prog.runR_stage (fun _ => 0.5 - 2 * h * (2 * h) / 48) (fun _ => by simp [Op.evalR]; ring), Prog.runR_stage (fun _ => Real.sin h) (fun _ => rfl),
    Prog.runR_stage (fun _ => Real.sin h / (2 * h)) (fun _ => rfl)]
  set f := if |2 * h| < 1e-6 then 0.5 - 2 * h * (2 * h) / 48 else Real.sin h / (2 * h) with hf
  rw [Prog.runR_stage (fun _ => f) (fun _ => small_eval), Prog.runR_stage (fun k => q.get k.succ / f) (fun _ => rfl)]
  funext k
  simp only [quaternionToAxisAngle, ← hn, ← hh]
  fin_cases k <;> (simp [Prog.runR, Quat.get, hf])

theorem a2q_good {nr : NormRule} {v : V3} (hv : v ≠ 0) (ha : PK.norm3 v ≠ 1e-6) (g : Fin 4 → ℝ) : a2q.Good nr v g := by
  have hvec : ![v 0, v 1, v 2] = v := by funext i; fin_cases i <;> rfl
  set n := PK.norm3 v with hn
  have hn0 : 0 < n := lt_of_le_of_ne (norm3_nonneg _) fun h => hv (norm3_eq_zero.1 h.symm)
  refine Prog.good_stage (fun _ => n) (fun _ => by rw [hn, ← hvec]; rfl) ?_ fun _ w _ => good_norm3 (by rwa [hvec])
  refine Prog.good_stage (fun _ => 0.5 * n) (fun _ => by simp [Op.evalR]) ?_ fun _ w _ => good_lin _ _
  refine Prog.good_stage (fun _ => n * n) (fun _ => rfl) ?_ fun _ w _ => good_mul _ _
  refine Prog.good_stage (fun _ => 0.5 - n * n / 48) (fun _ => by simp [Op.evalR]; ring) ?_ fun _ w _ => good_lin _ _
  refine Prog.good_stage (fun _ => Real.sin (0.5 * n)) (fun _ => rfl) ?_ fun _ w _ => good_sin _
  refine Prog.good_stage (fun _ => Real.sin (0.5 * n) / n) (fun _ => rfl) ?_ fun _ w _ => good_div hn0.ne'
  refine Prog.good_stage _ (fun _ => small_eval) ?_ fun _ w _ => good_small ?_
  · refine Prog.good_stage _ (fun _ => rfl) trivial fun k w _ => ?_
    cases k with
    | none => exact good_cos _
    | some k => exact good_mul _ _
  · simp only [Sum.elim_inl, Sum.elim_inr]
    rwa [abs_of_pos hn0]

theorem a2q_runR (v : V3) : a2q.runR v = (axisAngleToQuaternion v).get := by
  have hvec : ![v 0, v 1, v 2] = v := by funext i; fin_cases i <;> rfl
  rw [a2q, Prog.runR_stage (fun _ => PK.norm3 v) (fun _ => by rw [← hvec]; rfl)]
  set n := PK.norm3 v with hn
  rw [Prog.runR_stage (fun _ => 0.5 * n) (fun _ => by simp [Op.evalR]), Prog.runR_stage (fun _ => n * n) (fun _ => rfl),
    Prog.runR_stage (fun _ => 0.5 - n * n / 48) (fun _ => by simp [Op.evalR]; ring), Prog.runR_stage (fun _ => Real.sin (0.5 * n)) (fun _ => rfl),
    Prog.runR_stage (fun _ => Real.sin (0.5 * n) / n) (fun _ => rfl)]
  set f := if |n| < 1e-6 then 0.5 - n * n / 48 else Real.sin (0.5 * n) / n with hf
  rw [Prog.runR_stage (fun _ => f) (fun _ => small_eval),
    Prog.runR_stage (fun k => match k with | none => Real.cos (0.5 * n) | some k => v k * f) (fun k => by cases k <;> rfl)]
  funext k
  simp only [axisAngleToQuaternion, ← hn]
  fin_cases k <;> rfl

/-- `acos_linear_extrapolation` -/
theorem acosProg_good {nr : NormRule} {l u x : ℝ} (hl : -1 < l) (hu : u < 1) (g : Unit → ℝ) : (acosProg l u x).Good nr (fun _ => x) g := by
  unfold acosProg
  split_ifs with h1 h2
  · exact ⟨trivial, fun _ w _ => good_lin _ _⟩
  · exact ⟨trivial, fun _ w _ => good_lin _ _⟩
  · exact ⟨trivial, fun _ w _ => good_acos (by linarith) (by linarith)⟩

theorem acosProg_runR (l u x : ℝ) : (acosProg l u x).runR (fun _ => x) = fun _ => acosExtrapElem l u x := by
  unfold acosProg acosExtrapElem acosLinearApproximation
  split_ifs with h1 h2 <;> funext _ <;> simp [Prog.runR, Op.evalR] <;> ring

theorem nan_mul (a : Fl) : AD.mul .nan a = .nan := by cases a <;> rfl

/-- the half angle of no rotation receives no number -/
theorem q2a_half_nan {nr : NormRule} {e : Fin 4 ⊕ Unit → ℝ} (g : Fin 3 → Fl) : q2aHalf.back nr (up (Sum.elim e fun _ => 0)) g (inr ()) = .nan := by
  unfold q2aHalf
  rw [up_elim]
  refine Prog.back_nan_left (up fun _ => 0) (fun _ => by simp [Op.eval, up, AD.mul, fin_add]) ?_
  refine Prog.back_nan_left (up fun _ => 0) (fun _ => by simp [Op.eval, up, AD.mul]) ?_
  refine Prog.back_nan_left (up fun _ => 0.5) (fun _ => by simp [Op.eval, up, AD.mul, fin_add]) ?_
  refine Prog.back_nan_pull (up fun _ => 0) (fun _ => by simp [Op.eval, up, lift]) () ?_
  have : ∀ x : Fl, x = .nan → (inl (inl (inl (inr ()))), Fl.nan) ∈
    (Op.sin (ι := (((((Fin 4 ⊕ Unit) ⊕ Unit) ⊕ Unit) ⊕ Unit) ⊕ Unit)) (inl (inl (inl (inr ()))))).pull nr
      (Sum.elim (Sum.elim (Sum.elim (Sum.elim (up e) (up fun _ => 0)) (up fun _ => 0)) (up fun _ => 0)) (up fun _ => 0.5)) (.fin 0) x := by
    rintro x rfl
    simp [Op.pull, nan_mul]
  apply this
  refine Prog.back_nan_pull (fun _ => .nan) (fun _ => by simp [Op.eval, up, AD.div, infTimes]) () ?_
  have h6 : (0 : ℝ) < 1e-6 := by norm_num
  have h6' : ¬ (1e-6 : ℝ) ≤ 0 := by norm_num
  have hz : (0 : Fl) = .fin 0 := rfl
  rw [Prog.back_stage (fun _ => .fin 0.5) (fun _ => by simp [Op.eval, up, smallAngle, h6]), Prog.back_stage _ (fun _ => rfl)]
  simp [Op.pull, up, smallAngle, total, Prog.back, h6, h6']
  simp [hz, AD.div, infTimes]

/-- where no rotation takes place -/
theorem q2a_nan {nr : NormRule} {w : ℝ} (hw : 0 < w) (g : Fin 3 → Fl) : q2a.back nr (up ![w, 0, 0, 0]) g 0 = .nan ∧
    (nr = .maskDirection → ∀ k, k ≠ 0 → q2a.back nr (up ![w, 0, 0, 0]) g k = .nan) := by
  have hn : PK.norm3 ![0, 0, 0] = 0 := norm3_eq_zero.2 (by funext i; fin_cases i <;> rfl)
  have hat : PK.atan2 0 w = 0 := by
    have := atan2_smul (r := w) (h := 0) hw (by linarith [Real.pi_pos]) Real.pi_pos.le
    simpa using this
  have hcur : up (![w, 0, 0, 0] : Fin 4 → ℝ) 0 = .fin w := rfl
  have key : ∀ x : Fl, x = .nan → ∀ k : Fin 4 ⊕ Unit, k = inr () ∨ k = inl 0 →
      (k, Fl.nan) ∈ (Op.atan2 (inr ()) (inl 0) : Op (Fin 4 ⊕ Unit)).pull nr (up (Sum.elim ![w, 0, 0, 0] fun _ => 0)) (.fin 0) x := by
    rintro x rfl k (rfl | rfl) <;> simp [Op.pull, nan_mul]
  have hk : ∀ k : Fin 4 ⊕ Unit, k = inr () ∨ k = inl 0 →
      (Prog.stage Unit (fun _ => Op.atan2 (inr ()) (inl 0)) q2aHalf).back nr (up (Sum.elim ![w, 0, 0, 0] fun _ => 0)) g k = .nan := by
    intro k hk
    refine Prog.back_nan_pull (up fun _ => 0) (fun _ => by simp [Op.eval, up, AD.atan2, hat]) () (key _ ?_ k hk)
    rw [← up_elim]
    exact q2a_half_nan g
  rw [up_elim] at hk
  constructor
  · exact Prog.back_nan_left (up fun _ => 0) (fun _ => by simp [Op.eval, up, AD.norm3, hn]) (hk _ (Or.inr rfl))
  · rintro rfl k h0
    refine Prog.back_nan_pull (up fun _ => 0) (fun _ => by simp [Op.eval, up, AD.norm3, hn]) () ?_
    rw [hk _ (Or.inl rfl)]
    fin_cases k
    · exact absurd rfl h0
    all_goals simp [Op.pull, normBack, nan_mul]

theorem a2q_nan (g : Fin 4 → Fl) (k : Fin 3) : a2q.back .maskDirection (up 0) g k = .nan := by
  have hn : PK.norm3 ![0, 0, 0] = 0 := norm3_eq_zero.2 (by funext i; fin_cases i <;> rfl)
  unfold a2q
  refine Prog.back_nan_pull (up fun _ => 0) (fun _ => by simp [Op.eval, up, AD.norm3, hn]) () ?_
  have h1 : ∀ x : Fl, x = .nan → ((k, Fl.nan) : Fin 3 × Fl) ∈ (Op.norm3 0 1 2 : Op (Fin 3)).pull .maskDirection (up 0) (.fin 0) x := by
    rintro x rfl
    fin_cases k <;> simp [Op.pull, normBack, nan_mul]
  apply h1
  clear h1
  refine Prog.back_nan_pull (up fun _ => 0) (fun _ => by simp [Op.eval, up, AD.mul, fin_add]) () ?_
  have h1 : ∀ x : Fl, x = .nan → (inr (), Fl.nan) ∈ (Op.lin 0 [(0.5, inr ())] : Op (Fin 3 ⊕ Unit)).pull .maskDirection
      (Sum.elim (up 0) (up fun _ => 0)) (.fin 0) x := by
    rintro x rfl
    simp [Op.pull, nan_mul]
  apply h1
  clear h1
  refine Prog.back_nan_left (up fun _ => 0) (fun _ => by simp [Op.eval, up, AD.mul]) ?_
  refine Prog.back_nan_left (up fun _ => 0.5) (fun _ => by simp [Op.eval, up, AD.mul, fin_add]) ?_
  refine Prog.back_nan_pull (up fun _ => 0) (fun _ => by simp [Op.eval, up, lift]) () ?_
  have h1 : ∀ x : Fl, x = .nan → (inl (inl (inr ())), Fl.nan) ∈
    (Op.sin (ι := ((((Fin 3 ⊕ Unit) ⊕ Unit) ⊕ Unit) ⊕ Unit)) (inl (inl (inr ())))).pull .maskDirection
      (Sum.elim (Sum.elim (Sum.elim (Sum.elim (up 0) (up fun _ => 0)) (up fun _ => 0)) (up fun _ => 0)) (up fun _ => 0.5)) (.fin 0) x := by
    rintro x rfl
    simp [Op.pull, nan_mul]
  apply h1
  clear h1
  refine Prog.back_nan_pull (fun _ => .nan) (fun _ => by simp [Op.eval, up, AD.div, infTimes]) () ?_
  have h6 : (0 : ℝ) < 1e-6 := by norm_num
  have h6' : ¬ (1e-6 : ℝ) ≤ 0 := by norm_num
  have hz : (0 : Fl) = .fin 0 := rfl
  rw [Prog.back_stage (fun _ => .fin 0.5) (fun _ => by simp [Op.eval, up, smallAngle, h6]), Prog.back_stage _ (fun _ => rfl)]
  simp [Op.pull, up, smallAngle, total, Prog.back, h6, h6']
  simp [hz, AD.div, infTimes]

theorem a2q_zero (g : Fin 4 → ℝ) (k : Fin 3) : a2q.back .maskScaled (up 0) (up g) k = .fin (0.5 * g k.succ) := by
  have hn : PK.norm3 ![0, 0, 0] = 0 := norm3_eq_zero.2 (by funext i; fin_cases i <;> rfl)
  have h6 : (0 : ℝ) < 1e-6 := by norm_num
  have hz : (0 : Fl) = .fin 0 := rfl
  have hm : AD.mul (.fin 0) (.fin 0) = .fin 0 := by simp [AD.mul]
  unfold a2q
  rw [Prog.back_stage (up fun _ => 0) (fun _ => by simp [Op.eval, up, AD.norm3, hn]),
    Prog.back_stage (up fun _ => 0) (fun _ => by simp [Op.eval, up, AD.mul, fin_add]),
    Prog.back_stage (up fun _ => 0) (fun _ => by simp [Op.eval, up, AD.mul]),
    Prog.back_stage (up fun _ => 0.5) (fun _ => by simp [Op.eval, up, AD.mul, fin_add]),
    Prog.back_stage (up fun _ => 0) (fun _ => by simp [Op.eval, up, lift]),
    Prog.back_stage (fun _ => .nan) (fun _ => by simp [Op.eval, up, AD.div, infTimes]),
    Prog.back_stage (fun _ => .fin 0.5) (fun _ => by simp [Op.eval, up, smallAngle, h6]), Prog.back_stage _ (fun _ => rfl)]
  have hp : ∀ x, total ((Op.norm3 0 1 2 : Op (Fin 3)).pull .maskScaled (up 0) (.fin 0) x) k = 0 := by
    intro x
    simp only [total, Op.pull, normBack, up, if_true, List.map, Pi.zero_apply, hm, List.sum_cons, List.sum_nil]
    simp [hz, fin_add]
  simp only [univ_unique, sum_singleton]
  rw [show ((fun _ => 0 : Unit → ℝ)) = 0 from rfl] 
  erw [hp]
  simp [total, Op.pull, Prog.back, smallAngle, up, h6]
  rw [Fin.sum_univ_succ]
  simp [AD.mul, mul_comm]

/-- the extrapolated inverse cosine has a derivative everywhere -/
theorem hasDerivAt_glue {f h F : ℝ → ℝ} {d x : ℝ} (hf : HasDerivAt f d x) (hh : HasDerivAt h d x) (hx : f x = h x)
    (hF : ∀ᶠ y in 𝓝 x, F y = f y ∨ F y = h y) : HasDerivAt F d x := by
  have hFx : F x = f x := by rcases hF.self_of_nhds with h' | h' <;> rw [h']; exact hx.symm
  rw [hasDerivAt_iff_isLittleO] at *
  rw [isLittleO_iff] at *
  intro c hc
  filter_upwards [hf hc, hh hc, hF] with y h1 h2 h3
  rcases h3 with h3 | h3
  · rw [h3, hFx]; exact h1
  · rw [h3, hFx, hx]; exact h2

theorem hasDerivAt_acosExtrap {l u : ℝ} (hl : -1 < l) (hlu : l ≤ u) (hu : u < 1) (x : ℝ) :
    HasDerivAt (acosExtrapElem l u) (if x ≤ l then dacosDx l else if u ≤ x then dacosDx u else dacosDx x) x := by
  have hlin : ∀ x0 x, HasDerivAt (fun x => acosLinearApproximation x x0) (dacosDx x0) x := fun x0 x => by
    have := (((hasDerivAt_id x).sub_const x0).mul_const (dacosDx x0)).add_const (Real.arccos x0)
    simpa [acosLinearApproximation] using this
  have hacos : ∀ x, -1 < x → x < 1 → HasDerivAt Real.arccos (dacosDx x) x := fun x h1 h2 => by
    refine (Real.hasDerivAt_arccos h1.ne' h2.ne).congr_deriv ?_
    rw [dacosDx, neg_div, sq]
  have h0 : ∀ x0, acosLinearApproximation x0 x0 = Real.arccos x0 := fun x0 => by simp [acosLinearApproximation]
  rcases lt_trichotomy x l with h | h | h
  · rw [if_pos h.le]
    refine (hlin l x).congr_of_eventuallyEq ?_
    filter_upwards [gt_mem_nhds h] with y hy
    rw [acosExtrapElem, if_pos (le_of_lt hy)]
  · subst h
    rw [if_pos le_rfl]
    refine hasDerivAt_glue (hlin x x) (hacos x hl (by linarith)) (h0 x) ?_
    rcases hlu.lt_or_eq with hlu | rfl
    · filter_upwards [gt_mem_nhds hlu] with y hy
      unfold acosExtrapElem
      by_cases h1 : y ≤ x
      · rw [if_pos h1]; exact Or.inl rfl
      · rw [if_neg h1, if_neg (not_le.2 hy)]; exact Or.inr rfl
    · refine Eventually.of_forall fun y => ?_
      unfold acosExtrapElem
      by_cases h1 : y ≤ x
      · rw [if_pos h1]; exact Or.inl rfl
      · rw [if_neg h1, if_pos (le_of_lt (not_le.1 h1))]; exact Or.inl rfl
  · rw [if_neg (not_le.2 h)]
    rcases lt_trichotomy x u with h' | h' | h'
    · rw [if_neg (not_le.2 h')]
      refine (hacos x (by linarith) (by linarith)).congr_of_eventuallyEq ?_
      filter_upwards [gt_mem_nhds h', lt_mem_nhds h] with y hy hy'
      rw [acosExtrapElem, if_neg (not_le.2 hy'), if_neg (not_le.2 hy)]
    · subst h'
      rw [if_pos le_rfl]
      refine hasDerivAt_glue (hlin x x) (hacos x (by linarith) hu) (h0 x) ?_
      filter_upwards [lt_mem_nhds h] with y hy
      unfold acosExtrapElem
      rw [if_neg (not_le.2 hy)]
      by_cases h1 : x ≤ y
      · rw [if_pos h1]; exact Or.inl rfl
      · rw [if_neg h1]; exact Or.inr rfl
    · rw [if_pos h'.le]
      refine (hlin u x).congr_of_eventuallyEq ?_
      filter_upwards [lt_mem_nhds h', lt_mem_nhds h] with y hy hy'
      rw [acosExtrapElem, if_neg (not_le.2 hy'), if_pos (le_of_lt hy)]

theorem acosProg_back {nr : NormRule} {l u x : ℝ} (hl : -1 < l) (hu : u < 1) (g : ℝ) :
    (acosProg l u x).back nr (up fun _ => x) (up fun _ => g) = up fun _ => g * (if x ≤ l then dacosDx l else if u ≤ x then dacosDx u else dacosDx x) := by
  funext _
  unfold acosProg
  have hz : (0 : Fl) = .fin 0 := rfl
  split_ifs with h1 h2
  · simp [Prog.back, Op.pull, total, up, AD.mul]
  · simp [Prog.back, Op.pull, total, up, AD.mul]
  · have hp : 0 < 1 - x * x := by nlinarith
    have hs : Real.sqrt (1 - x * x) ≠ 0 := (Real.sqrt_pos.2 hp).ne'
    have hq : 1 + -(x * x) = 1 - x * x := by ring
    simp [Prog.back, Op.pull, total, up, AD.mul, AD.div, AD.sqrt, Fl.neg, fin_add, hq, not_lt.2 hp.le, hs, dacosDx, neg_div]

/-- `q1` and `q2` as inputs -/
def pairIn {N : ℕ} (q1 q2 : Fin N → Quat) : Fin N × (Fin 4 ⊕ Fin 4) → ℝ := fun p => Sum.elim (q1 p.1).get (q2 p.1).get p.2

/-- the products of the pairs -/
def dotIn {N : ℕ} (x : Fin N × (Fin 4 ⊕ Fin 4) → ℝ) (n : Fin N) : ℝ :=
  x (n, inl 0) * x (n, inr 0) + x (n, inl 1) * x (n, inr 1) + x (n, inl 2) * x (n, inr 2) + x (n, inl 3) * x (n, inr 3)

theorem closeFl_up {N : ℕ} (d : Fin N → ℝ) : closeFl (up d) ↔ ∀ n, 1 - d n ^ 2 < 1e-4 := Iff.rfl

theorem angRest_runR {N : ℕ} (e : AD7 N ⊕ Fin N → ℝ) : (angDistRest N).runR e = fun n =>
    if ∀ n, 1 - e (inl (inl (inl (inl (inl (inl (inr n))))))) ^ 2 < 1e-4 then 0 else 2 * e (inr n) := by
  rw [angDistRest, Prog.runR_stage (fun n => 2 * e (inr n)) (fun n => by simp [Op.evalR]),
    Prog.runR_stage (fun _ => 0) (fun n => by simp [Op.evalR]),
    Prog.runR_stage (fun n => if ∀ n, 1 - e (inl (inl (inl (inl (inl (inl (inr n))))))) ^ 2 < 1e-4 then 0 else 2 * e (inr n)) (fun n => ?_)]
  · rfl
  · simp only [Op.evalR]
    by_cases h : ∀ n, 1 - e (inl (inl (inl (inl (inl (inl (inr n))))))) ^ 2 < 1e-4
    · have h' : closeFl (up fun n => e (inl (inl (inl (inl (inl (inl (inr n)))))))) := h
      rw [if_pos h]
      erw [if_pos h']
      rfl
    · have h' : ¬ closeFl (up fun n => e (inl (inl (inl (inl (inl (inl (inr n)))))))) := h
      rw [if_neg h]
      erw [if_neg h']
      rfl

theorem angDist_runR {N : ℕ} (x : Fin N × (Fin 4 ⊕ Fin 4) → ℝ) : (angDist N).runR x = fun n =>
    if ∀ n, 1 - dotIn x n ^ 2 < 1e-4 then 0
    else 2 * PK.atan2 (Real.sqrt (1 - |min (max (dotIn x n) (-1)) 1| * |min (max (dotIn x n) (-1)) 1|)) |min (max (dotIn x n) (-1)) 1| := by
  rw [angDist, Prog.runR_stage _ (fun _ => rfl), Prog.runR_stage (dotIn x) (fun n => by simp [Op.evalR, dotIn]; ring)]
  set c := fun n => min (max (dotIn x n) (-1)) 1 with hc
  rw [Prog.runR_stage c (fun _ => rfl), Prog.runR_stage (fun n => |c n|) (fun _ => rfl), Prog.runR_stage (fun n => |c n| * |c n|) (fun _ => rfl),
    Prog.runR_stage (fun n => 1 - |c n| * |c n|) (fun n => by simp [Op.evalR]; ring),
    Prog.runR_stage (fun n => Real.sqrt (1 - |c n| * |c n|)) (fun _ => rfl), angDistTail,
    Prog.runR_stage (fun n => PK.atan2 (Real.sqrt (1 - |c n| * |c n|)) |c n|) (fun _ => rfl),
    angRest_runR]
  rfl

theorem angDist_runR_pair {N : ℕ} (q1 q2 : Fin N → Quat) : (angDist N).runR (pairIn q1 q2) = quaternionAngularDistance q1 q2 := by
  have hd : ∀ n, dotIn (pairIn q1 q2) n = qdot (q1 n) (q2 n) := fun n => by simp [dotIn, pairIn, qdot, Quat.get]
  rw [angDist_runR]
  funext n
  unfold quaternionAngularDistance quaternionClose
  simp only [hd, clampR, sq]
  congr!
  split_ifs <;> rfl

theorem good_close {ι : Type} [Fintype ι] {N : ℕ} {nr : NormRule} {e : ι → ℝ} {w : ℝ} (a : Fin N → ι) (x y : ι)
    (h : ∃ m, 1e-4 < 1 - e (a m) ^ 2) : (Op.pick fun env => if closeFl (fun n => env (a n)) then x else y).Good nr e w := by
  apply good_pick
  obtain ⟨m, hm⟩ := h
  have hev : ∀ e : ι → ℝ, 1e-4 < 1 - e (a m) ^ 2 → ¬ closeFl (fun n => up e (a n)) := by
    intro e he hcl
    have := hcl m
    simp only [up] at this
    linarith
  have hc : ContinuousAt (fun e : ι → ℝ => 1 - e (a m) ^ 2) e := (by fun_prop : Continuous _).continuousAt
  filter_upwards [hc.eventually (lt_mem_nhds hm)] with e' he
  rw [if_neg (hev e' he), if_neg (hev e hm)]

theorem angDist_good {N : ℕ} {nr : NormRule} {x : Fin N × (Fin 4 ⊕ Fin 4) → ℝ} (h0 : ∀ n, dotIn x n ≠ 0) (h1 : ∀ n, |dotIn x n| < 1)
    (hclose : ∃ n, 1e-4 < 1 - dotIn x n ^ 2) (g : Fin N → ℝ) : (angDist N).Good nr x g := by
  have hlt : ∀ n, -1 < dotIn x n ∧ dotIn x n < 1 := fun n => abs_lt.1 (h1 n)
  have hpos : ∀ n, 0 < 1 - |dotIn x n| * |dotIn x n| := fun n => by
    have := h1 n; have := abs_nonneg (dotIn x n); nlinarith
  refine Prog.good_stage _ (fun _ => rfl) ?_ fun _ w _ => good_mul _ _
  refine Prog.good_stage (dotIn x) (fun n => by simp [Op.evalR, dotIn]; ring) ?_ fun _ w _ => good_lin _ _
  refine Prog.good_stage (dotIn x) (fun n => ?_) ?_ fun n w _ => good_clamp (hlt n).1 (hlt n).2
  · simp only [Op.evalR, Sum.elim_inr]
    rw [max_eq_left (hlt n).1.le, min_eq_left (hlt n).2.le]
  refine Prog.good_stage (fun n => |dotIn x n|) (fun _ => rfl) ?_ fun n w _ => good_abs (h0 n)
  refine Prog.good_stage (fun n => |dotIn x n| * |dotIn x n|) (fun _ => rfl) ?_ fun n w _ => good_sq _
  refine Prog.good_stage (fun n => 1 - |dotIn x n| * |dotIn x n|) (fun _ => by simp [Op.evalR]; ring) ?_ fun n w _ => good_lin _ _
  refine Prog.good_stage (fun n => Real.sqrt (1 - |dotIn x n| * |dotIn x n|)) (fun _ => rfl) ?_ fun n w _ => good_sqrt (hpos n)
  refine Prog.good_stage _ (fun _ => rfl) ?_ fun n w _ => good_atan2 (Real.sqrt_pos.2 (hpos n))
  refine Prog.good_stage _ (fun _ => rfl) ?_ fun _ w _ => good_lin _ _
  refine Prog.good_stage _ (fun _ => rfl) ?_ fun _ w _ => good_lin _ _
  exact Prog.good_stage _ (fun _ => rfl) trivial fun n w _ => good_close _ _ _ hclose

theorem good_close' {ι : Type} [Fintype ι] {N : ℕ} {nr : NormRule} {e : ι → ℝ} {w : ℝ} (a : Fin N → ι) (x y : ι)
    (h : ∀ m, 1 - e (a m) ^ 2 < 1e-4) : (Op.pick fun env => if closeFl (fun n => env (a n)) then x else y).Good nr e w := by
  apply good_pick
  have hc : ∀ m, ∀ᶠ e' in 𝓝 e, 1 - e' (a m) ^ 2 < 1e-4 := fun m =>
    ((by fun_prop : Continuous fun e : ι → ℝ => 1 - e (a m) ^ 2).continuousAt).eventually (gt_mem_nhds (h m))
  filter_upwards [eventually_all.2 hc] with e' he
  rw [if_pos (show closeFl (fun n => up e' (a n)) from he), if_pos (show closeFl (fun n => up e (a n)) from h)]

theorem angRest_good {N : ℕ} {nr : NormRule} {e : AD7 N ⊕ Fin N → ℝ} (hclose : ∀ n, 1 - e (inl (inl (inl (inl (inl (inl (inr n))))))) ^ 2 < 1e-4)
    (g : Fin N → ℝ) : (angDistRest N).Good nr e g := by
  refine Prog.good_stage _ (fun _ => rfl) ?_ fun _ w _ => good_lin _ _
  refine Prog.good_stage _ (fun _ => rfl) ?_ fun _ w _ => good_lin _ _
  exact Prog.good_stage _ (fun _ => rfl) trivial fun n w _ => good_close' _ _ _ hclose

theorem angTail_zero {N : ℕ} {nr : NormRule} {e : AD7 N → ℝ} (hclose : ∀ n, 1 - e (inl (inl (inl (inl (inl (inr n)))))) ^ 2 < 1e-4) {m : Fin N}
    (h0 : e (inr m) = 0) (h1 : e (inl (inl (inl (inr m)))) = 1) (g : Fin N → ℝ) : (angDistTail N).back nr (up e) (up g) (inr m) = .fin 0 := by
  have hz : (0 : Fl) = .fin 0 := rfl
  unfold angDistTail
  set a := fun n => PK.atan2 (e (inr n)) (e (inl (inl (inl (inr n)))))
  rw [Prog.back_stage (up a) (fun _ => rfl), ← up_elim]
  have hb : ∀ j : AD7 N ⊕ Fin N, (∀ n, j ≠ inl (inl (inl (inl (inl (inl (inr n))))))) →
      (angDistRest N).back nr (up (Sum.elim e a)) (up g) j = .fin 0 := by
    intro j hj
    refine Prog.back_zero (angRest_good (by simpa using hclose) g) j fun e' he' => ?_
    rw [angRest_runR, angRest_runR]
    have h1 : ∀ n, 1 - e' (inl (inl (inl (inl (inl (inl (inr n))))))) ^ 2 < 1e-4 := fun n => by
      rw [he' _ (hj n).symm]; simpa using hclose n
    have h2 : ∀ n, 1 - (Sum.elim e a) (inl (inl (inl (inl (inl (inl (inr n))))))) ^ 2 < 1e-4 := fun n => by simpa using hclose n
    funext n
    rw [if_pos h1, if_pos h2]
  rw [hb _ (by simp)]
  simp only [hb _ (show ∀ n, (inr _ : AD7 N ⊕ Fin N) ≠ inl _ by simp)]
  have : ∀ k, total ((Op.atan2 (inr k) (inl (inl (inl (inr k)))) : Op (AD7 N)).pull nr (up e) (up a k) (.fin 0)) (inr m) = .fin 0 := by
    intro k
    by_cases hk : k = m
    · subst hk
      simp [total, Op.pull, up, h0, h1, AD.mul, AD.div, fin_add, hz]
    · simp [total, Op.pull, hk, hz, fin_add]
  simp only [this, fin_sum, fin_add]
  simp

/-- equal quaternions in a batch of close pairs -/
theorem angDist_nan {N : ℕ} {nr : NormRule} {x : Fin N × (Fin 4 ⊕ Fin 4) → ℝ} (hclose : ∀ n, 1 - dotIn x n ^ 2 < 1e-4) {m : Fin N}
    (hm : |dotIn x m| = 1) (g : Fin N → ℝ) (k : Fin 4 ⊕ Fin 4) : (angDist N).back nr (up x) (up g) (m, k) = .nan := by
  unfold angDist
  set pr := fun p : Fin N × Fin 4 => x (p.1, inl p.2) * x (p.1, inr p.2) with hpr
  set c := fun n => min (max (dotIn x n) (-1)) 1 with hc
  have hcm : |c m| = 1 := by
    rcases eq_or_eq_neg_of_abs_eq hm with h | h <;> simp [hc, h]
  have hle : ∀ n, |c n| ≤ 1 := fun n => abs_le.2 ⟨by simp [hc], by simp [hc]⟩
  have hd : ∀ n, (Op.lin 0 [(1, inr (n, 0)), (1, inr (n, 1)), (1, inr (n, 2)), (1, inr (n, 3))] : Op ((Fin N × (Fin 4 ⊕ Fin 4)) ⊕ Fin N × Fin 4)).eval
      (up (Sum.elim x pr)) = .fin (dotIn x n) := fun n => by
    rw [(good_lin (nr := nr) (w := 0) _ _).val]
    simp [Op.evalR, hpr, dotIn]; ring
  have hbound : -1 ≤ dotIn x m ∧ dotIn x m ≤ 1 := abs_le.1 hm.le
  -- from the back
  have hcc : c m * c m = 1 := by rw [← abs_mul_abs_self, hcm, mul_one]
  have hk : ∃ i, k = inl i ∨ k = inr i := by rcases k with i | i <;> exact ⟨i, by simp⟩
  obtain ⟨i, hi⟩ := hk
  refine Prog.back_nan_pull (up pr) (fun _ => rfl) (m, i) ?_
  have s1 : ∀ y : Fl, y = .nan → ((m, k), Fl.nan) ∈ (Op.mul (m, inl i) (m, inr i)).pull nr (up x) (up pr (m, i)) y := by
    rintro y rfl
    rcases hi with rfl | rfl <;> simp [Op.pull, nan_mul]
  apply s1
  rw [← up_elim]
  refine Prog.back_nan_pull (up (dotIn x)) hd m ?_
  have s2 : ∀ y : Fl, y = .nan → (inr (m, i), Fl.nan) ∈ (Op.lin 0 [(1, inr (m, 0)), (1, inr (m, 1)), (1, inr (m, 2)), (1, inr (m, 3))] :
      Op ((Fin N × (Fin 4 ⊕ Fin 4)) ⊕ Fin N × Fin 4)).pull nr (up (Sum.elim x pr)) (up (dotIn x) m) y := by
    rintro y rfl
    fin_cases i <;> simp [Op.pull, nan_mul]
  apply s2
  rw [← up_elim]
  refine Prog.back_nan_pull (up c) (fun n => by simp only [Op.eval, Fl.clamp, up, max_fin, min_fin, Sum.elim_inr, hc]) m ?_
  simp only [Op.pull, up, Sum.elim_inr, Fl.le, hbound.1, hbound.2, and_self, if_true, List.mem_singleton, Prod.mk.injEq, true_and]
  symm
  rw [← up_elim]
  refine Prog.back_nan_pull (up fun n => |c n|) (fun _ => rfl) m ?_
  have s3 : ∀ {κ : Type} (env : κ ⊕ Fin N → Fl) (v y : Fl), y = .nan → (inr m, Fl.nan) ∈ (Op.abs (inr m) : Op (κ ⊕ Fin N)).pull nr env v y := by
    rintro κ env v y rfl
    simp [Op.pull, nan_mul]
  apply s3
  rw [← up_elim]
  refine Prog.back_nan_pull (up fun n => |c n| * |c n|) (fun _ => rfl) m ?_
  have s4 : ∀ {κ : Type} (env : κ ⊕ Fin N → Fl) (v y : Fl), y = .nan → (inr m, Fl.nan) ∈ (Op.sq (inr m) : Op (κ ⊕ Fin N)).pull nr env v y := by
    rintro κ env v y rfl
    simp [Op.pull, nan_mul]
  apply s4
  rw [← up_elim]
  refine Prog.back_nan_pull (up fun n => 1 - |c n| * |c n|) (fun n => by simp [Op.eval, up, AD.mul, fin_add]; ring) m ?_
  have s5 : ∀ {κ : Type} (env : κ ⊕ Fin N → Fl) (v y : Fl), y = .nan → (inr m, Fl.nan) ∈ (Op.lin 1 [(-1, inr m)] : Op (κ ⊕ Fin N)).pull nr env v y := by
    rintro κ env v y rfl
    simp [Op.pull, nan_mul]
  apply s5
  rw [← up_elim]
  refine Prog.back_nan_pull (up fun n => Real.sqrt (1 - |c n| * |c n|)) (fun n => ?_) m ?_
  · have : ¬ (1 - |c n| * |c n| < 0) := by have := hle n; have := abs_nonneg (c n); nlinarith
    simp only [Op.eval, AD.sqrt, up, Sum.elim_inr, this, if_false]
  rw [← up_elim, angTail_zero (by simpa using hclose) (by simp [hcc]) (by simpa using hcm)]
  simp [Op.pull, up, hcc, AD.mul, AD.div, infTimes]

end PK.AD
