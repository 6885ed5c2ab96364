import Verif.Model.TapeSo3
import Verif.Props.Gradients
import Verif.Props.So3
import Verif.Lemmas.Good
import Verif.Lemmas.TapeSecond
import Mathlib.Analysis.Calculus.FDeriv.Prod

/-!
# C119: gradients of the functions of `so3.py`
-/

namespace PK
open AD Filter Topology Finset Sum Spec
open scoped Classical

namespace AD

variable {ι μ : Type} [Fintype ι] [Fintype μ] {nr : NormRule}

/-! ## exponential -/

theorem expTail_good (fac1 fac2 : ι) (v : Fin 3 → ι) (e : ι → ℝ) (g : E3 → ℝ) : (expTail fac1 fac2 v).Good nr e g := by
  refine ⟨⟨⟨⟨⟨⟨trivial, fun p w _ => good_lin _ _⟩, fun p w _ => good_mul _ _⟩, fun p w _ => good_mul _ _⟩, fun p w _ => good_lin _ _⟩,
    fun p w _ => good_mul _ _⟩, fun p w _ => good_lin _ _⟩

theorem expTail_runR (fac1 fac2 : ι) (v : Fin 3 → ι) (e : ι → ℝ) : (expTail fac1 fac2 v).runR e = fun p =>
    (e fac1 • hatV (fun k => e (v k)) + e fac2 • (hatV (fun k => e (v k)) * hatV (fun k => e (v k))) + 1 : M3) p.1 p.2 := by
  unfold expTail
  rw [Prog.runR_stage (fun p => hatV (fun k => e (v k)) p.1 p.2) (fun p => ?_),
    Prog.runR_stage (fun p => hatV (fun k => e (v k)) p.1.1 p.2 * hatV (fun k => e (v k)) p.2 p.1.2) (fun p => rfl),
    Prog.runR_stage (fun p => (hatV (fun k => e (v k)) * hatV (fun k => e (v k)) : M3) p.1 p.2) (fun p => ?_)]
  · funext p
    simp only [Prog.runR, Op.evalR, Sum.elim_inl, Sum.elim_inr, List.map_cons, List.map_nil, List.sum_cons, List.sum_nil, Matrix.add_apply,
      Matrix.smul_apply, smul_eq_mul, Matrix.one_apply]
    ring
  · simp [Op.evalR, Matrix.mul_apply, Fin.sum_univ_three]; ring
  · obtain ⟨i, j⟩ := p
    fin_cases i <;> fin_cases j <;> simp [hatTerms, Op.evalR, hatV]

/-- the same record without the clamp -/
noncomputable def expFree : Prog (Fin 3) E3 :=
  .stage (Fin 3) (fun i => .mul i i) <|
  .stage Unit (fun _ => .lin 0 [(1, inr 0), (1, inr 1), (1, inr 2)]) <|
  .stage Unit (fun _ => .lin 0 [(1, inr ())]) <|
  expRest

theorem expRest_runR (e : ((Fin 3 ⊕ Fin 3) ⊕ Unit) ⊕ Unit → ℝ) : expRest.runR e = fun p =>
    let v : V3 := fun k => e (inl (inl (inl k)))
    let a := Real.sqrt (e (inr ()))
    ((1 / a * Real.sin a) • hatV v + (1 / a * (1 / a) * (1 - Real.cos a)) • (hatV v * hatV v) + 1 : M3) p.1 p.2 := by
  unfold expRest
  rw [Prog.runR_stage (fun _ => Real.sqrt (e (inr ()))) (fun _ => rfl)]
  set a := Real.sqrt (e (inr ())) with ha
  rw [Prog.runR_stage (fun _ => 1 / a) (fun _ => rfl), Prog.runR_stage (fun _ => Real.sin a) (fun _ => rfl),
    Prog.runR_stage (fun _ => 1 / a * Real.sin a) (fun _ => rfl), Prog.runR_stage (fun _ => 1 / a * (1 / a)) (fun _ => rfl),
    Prog.runR_stage (fun _ => Real.cos a) (fun _ => rfl), Prog.runR_stage (fun _ => 1 - Real.cos a) (fun _ => by simp [Op.evalR]; ring),
    Prog.runR_stage (fun _ => 1 / a * (1 / a) * (1 - Real.cos a)) (fun _ => rfl), expTail_runR]
  rfl

theorem expRest_good {e : ((Fin 3 ⊕ Fin 3) ⊕ Unit) ⊕ Unit → ℝ} (h : 0 < e (inr ())) (g : E3 → ℝ) : expRest.Good nr e g := by
  refine ⟨⟨⟨⟨⟨⟨⟨⟨expTail_good _ _ _ _ _, fun _ w _ => good_mul _ _⟩, fun _ w _ => good_lin _ _⟩, fun _ w _ => good_cos _⟩, fun _ w _ => good_mul _ _⟩,
    fun _ w _ => good_mul _ _⟩, fun _ w _ => good_sin _⟩, fun _ w _ => good_recip (Real.sqrt_pos.2 h).ne'⟩, fun _ w _ => good_sqrt h⟩

theorem expMap_runR (eps : ℝ) (v : V3) : (expMap eps).runR v = fun p => so3ExpMap v eps p.1 p.2 := by
  unfold expMap
  rw [Prog.runR_stage (fun i => v i * v i) (fun _ => rfl), Prog.runR_stage (fun _ => dot v v) (fun _ => by simp [Op.evalR, dot]; try ring),
    Prog.runR_stage (fun _ => max (dot v v) eps) (fun _ => rfl), expRest_runR]
  rfl

theorem expFree_runR (v : V3) : expFree.runR v = fun p => so3ExpMap v 0 p.1 p.2 := by
  unfold expFree
  have h0 : 0 ≤ dot v v := by rw [← norm3_sq]; positivity
  rw [Prog.runR_stage (fun i => v i * v i) (fun _ => rfl), Prog.runR_stage (fun _ => dot v v) (fun _ => by simp [Op.evalR, dot]; try ring),
    Prog.runR_stage (fun _ => max (dot v v) 0) (fun _ => by simp [Op.evalR, h0]), expRest_runR]
  rfl

/-- the values, also on the surface of the clamped ball -/
theorem expMap_run {eps : ℝ} (he : 0 < eps) (v : V3) : (expMap eps).run (up v) = up fun p => so3ExpMap v eps p.1 p.2 := by
  rw [← expMap_runR]
  unfold expMap
  rw [Prog.run_stage (fun i => v i * v i) (fun _ => rfl), Prog.runR_stage (fun i => v i * v i) (fun _ => rfl),
    Prog.run_stage (fun _ => dot v v) (fun _ => ?_), Prog.runR_stage (fun _ => dot v v) (fun _ => by simp [Op.evalR, dot]; try ring),
    Prog.run_stage (fun _ => max (dot v v) eps) (fun _ => by exact max_fin _ _), Prog.runR_stage (fun _ => max (dot v v) eps) (fun _ => rfl)]
  · exact (Prog.sound .maskScaled _ _ _ (expRest_good (lt_max_of_lt_right he) fun _ => 0)).1
  · rw [(good_lin (nr := .maskScaled) (w := 0) _ _).val]
    congr 1
    simp [Op.evalR, dot]; try ring

theorem expMap_good {eps : ℝ} (he : 0 < eps) {v : V3} (hv : dot v v ≠ eps) (g : E3 → ℝ) : (expMap eps).Good nr v g := by
  unfold expMap
  refine Prog.good_stage (fun i => v i * v i) (fun _ => rfl) ?_ fun _ w _ => good_mul _ _
  refine Prog.good_stage (fun _ => dot v v) (fun _ => by simp [Op.evalR, dot]; try ring) ?_ fun _ w _ => good_lin _ _
  exact Prog.good_stage (fun _ => max (dot v v) eps) (fun _ => rfl) (expRest_good (lt_max_of_lt_right he) _) fun _ w _ => good_clampMin hv

theorem expFree_good {v : V3} (hv : 0 < dot v v) (g : E3 → ℝ) : expFree.Good nr v g := by
  unfold expFree
  refine Prog.good_stage (fun i => v i * v i) (fun _ => rfl) ?_ fun _ w _ => good_mul _ _
  refine Prog.good_stage (fun _ => dot v v) (fun _ => by simp [Op.evalR, dot]; try ring) ?_ fun _ w _ => good_lin _ _
  exact Prog.good_stage (fun _ => dot v v) (fun _ => by simp [Op.evalR]) (expRest_good hv _) fun _ w _ => good_lin _ _

/-- without the clamp the formula is the rotation about `v` by the length of `v` -/
theorem exp_zero_eq (v : V3) (hv : 0 < dot v v) : so3ExpMap v 0 = rotAbout (fun i => v i / vlen v) (vlen v) := by
  rw [vlen_eq_norm3, ← axisAndAngleToMatrix33_eq_rotAbout]
  have hn2 := norm3_sq v
  have hpos : 0 < PK.norm3 v := Real.sqrt_pos.2 hv
  unfold so3ExpMap
  simp only
  rw [max_eq_left hv.le]
  change (1 / PK.norm3 v * Real.sin (PK.norm3 v)) • hatV v + (1 / PK.norm3 v * (1 / PK.norm3 v) * (1 - Real.cos (PK.norm3 v))) • (hatV v * hatV v)
    + 1 = _
  generalize PK.norm3 v = n at *
  unfold dot at hn2
  apply m3_ext9 <;>
  simp [axisAndAngleToMatrix33, hatV, Matrix.mul_apply, Fin.sum_univ_three, Matrix.add_apply, Matrix.smul_apply] <;>
  field_simp <;> grind

theorem mul_one_fl (x : Fl) : AD.mul x (.fin 1) = x := by
  cases x <;> simp [AD.mul, infTimes]

/-- outside the clamped ball, its surface included, the clamp passes everything on -/
theorem expMap_back {eps : ℝ} {v : V3} (hv : eps ≤ dot v v) (g : E3 → Fl) : (expMap eps).back nr (up v) g = expFree.back nr (up v) g := by
  unfold expMap expFree
  refine Prog.back_congr (up fun i => v i * v i) (fun _ => rfl) (fun _ => rfl) (fun _ _ => rfl) ?_
  have hd : ∀ k : Unit, (Op.lin 0 [(1, inr 0), (1, inr 1), (1, inr 2)] : Op (Fin 3 ⊕ Fin 3)).eval (Sum.elim (up v) (up fun i => v i * v i)) = .fin (dot v v) := by
    intro _
    rw [← up_elim, (good_lin (nr := nr) (w := 0) _ _).val]
    congr 1
    simp [Op.evalR, dot]; try ring
  refine Prog.back_congr (up fun _ => dot v v) hd hd (fun _ _ => rfl) ?_
  refine Prog.back_congr (up fun _ => dot v v) (fun _ => ?_) (fun _ => ?_) (fun _ x => ?_) rfl
  · show Fl.max (.fin (dot v v)) (.fin eps) = _
    rw [max_fin, max_eq_left hv]
  · rw [← up_elim, ← up_elim, (good_lin (nr := nr) (w := 0) _ _).val]
    congr 1
    simp [Op.evalR]
  · simp only [Op.pull, List.map_cons, List.map_nil, mul_one_fl, Sum.elim_inr, up, Fl.le]
    simp [hv]

end AD

/-- C119: `so3_exp_map`.  The gradient is finite for every vector, also for no rotation.  Outside the ball in which the angle is clamped, its surface
included, it is the derivative of the exact map, which turns about `v` by the length of `v`; inside, it is the derivative of the clamped formula. -/
theorem C119_exp_map (nr : NormRule) {eps : ℝ} (he : 0 < eps) (v : V3) (g : E3 → ℝ) :
    (expMap eps).run (up v) = up (fun p => so3ExpMap v eps p.1 p.2) ∧
    ∃ G, (expMap eps).back nr (up v) (up g) = up G ∧
      (eps ≤ vlen v ^ 2 → IsVJP (fun v p => rotAbout (fun i => v i / vlen v) (vlen v) p.1 p.2) v g G) ∧
      (vlen v ^ 2 ≠ eps → IsVJP (fun v p => so3ExpMap v eps p.1 p.2) v g G) := by
  have hd : vlen v ^ 2 = dot v v := by rw [vlen_eq_norm3, norm3_sq]
  rw [hd]
  refine ⟨expMap_run he v, ?_⟩
  by_cases h : eps ≤ dot v v
  · have hpos : 0 < dot v v := lt_of_lt_of_le he h
    obtain ⟨-, G, h1, h2⟩ := vjp (expFree_good (nr := nr) hpos g) (f := fun v p => so3ExpMap v 0 p.1 p.2) expFree_runR
    rw [expMap_back h]
    refine ⟨G, h1, fun _ => ?_, fun hne => ?_⟩
    · have hev : ∀ᶠ w : V3 in 𝓝 v, 0 < dot w w := by
        have : Continuous fun w : V3 => dot w w := by unfold dot; fun_prop
        exact this.continuousAt.eventually (lt_mem_nhds hpos)
      refine HasFDerivAt.congr_of_eventuallyEq h2 ?_
      filter_upwards [hev] with w hw
      simp only [exp_zero_eq w hw]
    · obtain ⟨-, G', h1', h2'⟩ := vjp (expMap_good (nr := nr) he hne g) (f := fun v p => so3ExpMap v eps p.1 p.2) (expMap_runR eps)
      rw [expMap_back h, h1] at h1'
      have : G = G' := by funext j; simpa [up] using congrFun h1' j
      exact this ▸ h2'
  · obtain ⟨-, G, h1, h2⟩ := vjp (expMap_good (nr := nr) he (fun h' => h h'.ge) g) (f := fun v p => so3ExpMap v eps p.1 p.2) (expMap_runR eps)
    exact ⟨G, h1, fun h' => absurd h' h, fun _ => h2⟩

/-- no rotation and a half turn -/
example : vlen (0 : V3) ^ 2 ≠ 1e-4 ∧ (1e-4 : ℝ) ≤ vlen ![0, Real.pi, 0] ^ 2 := by
  constructor
  · norm_num [vlen]
  · rw [vlen_eq_norm3, norm3_sq]
    have := Real.pi_gt_three
    simp [dot]
    nlinarith

namespace AD

variable {ι μ : Type} [Fintype ι] [Fintype μ] {nr : NormRule}

/-! ## angle -/

/-- two functions that agree to first order where they are evaluated -/
theorem swap_deriv {E : Type} [NormedAddCommGroup E] [NormedSpace ℝ E] {T : E × ℝ → ℝ} {x : E → ℝ} {φ ψ : ℝ → ℝ} {e : E} {d : ℝ} {L : E →L[ℝ] ℝ}
    (hT : DifferentiableAt ℝ T (e, φ (x e))) (hx : DifferentiableAt ℝ x e) (hφ : HasDerivAt φ d (x e)) (hψ : HasDerivAt ψ d (x e))
    (h : φ (x e) = ψ (x e)) (hF : HasFDerivAt (fun e => T (e, ψ (x e))) L e) : HasFDerivAt (fun e => T (e, φ (x e))) L e := by
  have h1 := hφ.comp_hasFDerivAt e hx.hasFDerivAt
  have h2 := hψ.comp_hasFDerivAt e hx.hasFDerivAt
  have k1 := hT.hasFDerivAt.comp e ((hasFDerivAt_id e).prodMk h1)
  have hT' : HasFDerivAt T (fderiv ℝ T (e, φ (x e))) (e, ψ (x e)) := by rw [← h]; exact hT.hasFDerivAt
  have k2 := hT'.comp e ((hasFDerivAt_id e).prodMk h2)
  rw [hF.unique k2]
  exact k1

/-- the recorded branch -/
noncomputable def acosFrozen (l u x0 x : ℝ) : ℝ :=
  if x0 ≤ l then acosLinearApproximation x l else if u ≤ x0 then acosLinearApproximation x u else Real.arccos x

theorem acosFrozen_self (l u x : ℝ) : acosFrozen l u x x = acosExtrapElem l u x := rfl

theorem acosOp_evalR (l u x : ℝ) (a : ι) (e : ι → ℝ) : (acosOp l u x a).evalR e = acosFrozen l u x (e a) := by
  unfold acosOp acosFrozen acosLinearApproximation
  split_ifs
  · simp [Op.evalR]; ring
  · simp [Op.evalR]; ring
  · rfl

theorem acosOp_good {l u : ℝ} (hl : -1 < l) (hu : u < 1) {a : ι} {e : ι → ℝ} {w : ℝ} : (acosOp l u (e a) a).Good nr e w := by
  unfold acosOp
  split_ifs with h1 h2
  · exact good_lin _ _
  · exact good_lin _ _
  · exact good_acos (by linarith) (by linarith)

theorem hasDerivAt_acosFrozen {l u : ℝ} (hl : -1 < l) (hu : u < 1) (x : ℝ) :
    HasDerivAt (acosFrozen l u x) (if x ≤ l then dacosDx l else if u ≤ x then dacosDx u else dacosDx x) x := by
  have hlin : ∀ x0 x, HasDerivAt (fun x => acosLinearApproximation x x0) (dacosDx x0) x := fun x0 x => by
    have := (((hasDerivAt_id x).sub_const x0).mul_const (dacosDx x0)).add_const (Real.arccos x0)
    simpa [acosLinearApproximation] using this
  unfold acosFrozen
  split_ifs with h1 h2
  · exact hlin l x
  · exact hlin u x
  · refine (Real.hasDerivAt_arccos (by linarith) (by linarith)).congr_deriv ?_
    rw [dacosDx, neg_div, sq]

/-- the trace -/
def trOf (R : E3 → ℝ) : ℝ := R (0, 0) + R (1, 1) + R (2, 2)

/-- what the rest of a record reads -/
def angleEnv (R : E3 → ι) (e : ι → ℝ) (φ : ℝ) : ((ι ⊕ Unit) ⊕ Unit) ⊕ Unit → ℝ :=
  Sum.elim (Sum.elim (Sum.elim e fun _ => trOf fun q => e (R q)) fun _ => phiCos fun q => e (R q)) fun _ => φ

theorem angleThen_runR (b x : ℝ) (R : E3 → ι) (p : Prog (((ι ⊕ Unit) ⊕ Unit) ⊕ Unit) μ) (e : ι → ℝ) :
    (angleThen b x R p).runR e = p.runR (angleEnv R e (acosFrozen (-(1 - b)) (1 - b) x (phiCos fun q => e (R q)))) := by
  unfold angleThen
  rw [Prog.runR_stage (fun _ => trOf fun q => e (R q)) (fun _ => by simp [Op.evalR, trOf]; try ring),
    Prog.runR_stage (fun _ => phiCos fun q => e (R q)) (fun _ => by simp [Op.evalR, trOf, phiCos]; ring),
    Prog.runR_stage (fun _ => acosFrozen (-(1 - b)) (1 - b) x (phiCos fun q => e (R q))) (fun _ => by exact acosOp_evalR _ _ _ _ _)]
  rfl

theorem angleThen_good {b : ℝ} (h1 : 0 < b) (R : E3 → ι) {p : Prog (((ι ⊕ Unit) ⊕ Unit) ⊕ Unit) μ} {e : ι → ℝ} {g : μ → ℝ}
    (hp : p.Good nr (angleEnv R e (acosExtrapElem (-(1 - b)) (1 - b) (phiCos fun q => e (R q)))) g) :
    (angleThen b (phiCos fun q => e (R q)) R p).Good nr e g := by
  unfold angleThen
  refine Prog.good_stage (fun _ => trOf fun q => e (R q)) (fun _ => by simp [Op.evalR, trOf]; try ring) ?_ fun _ w _ => good_lin _ _
  refine Prog.good_stage (fun _ => phiCos fun q => e (R q)) (fun _ => by simp [Op.evalR, trOf, phiCos]; ring) ?_ fun _ w _ => good_lin _ _
  exact Prog.good_stage (fun _ => acosExtrapElem (-(1 - b)) (1 - b) (phiCos fun q => e (R q))) (fun _ => acosOp_evalR _ _ _ _ _) hp
    fun _ w _ => acosOp_good (a := (inr () : (ι ⊕ Unit) ⊕ Unit)) (by linarith) (by linarith)

/-- a record that reads the angle: `T` is what it computes from the entries and the angle -/
theorem angleThen_vjp {b : ℝ} (h1 : 0 < b) (h2 : b ≤ 1) (R : E3 → ι) {p : Prog (((ι ⊕ Unit) ⊕ Unit) ⊕ Unit) μ} {e : ι → ℝ} {g : μ → ℝ}
    (hp : p.Good nr (angleEnv R e (acosExtrapElem (-(1 - b)) (1 - b) (phiCos fun q => e (R q)))) g)
    (T : (ι → ℝ) × ℝ → μ → ℝ)
    (hT : ∀ k, DifferentiableAt ℝ (fun z => T z k) (e, acosExtrapElem (-(1 - b)) (1 - b) (phiCos fun q => e (R q))))
    (hP : ∀ᶠ z in 𝓝 (e, acosExtrapElem (-(1 - b)) (1 - b) (phiCos fun q => e (R q))), p.runR (angleEnv R z.1 z.2) = T z) :
    let q := angleThen b (phiCos fun q => e (R q)) R p
    q.run (up e) = up (T (e, acosExtrapElem (-(1 - b)) (1 - b) (phiCos fun q => e (R q)))) ∧
    ∃ G, q.back nr (up e) (up g) = up G ∧ IsVJP (fun e => T (e, acosExtrapElem (-(1 - b)) (1 - b) (phiCos fun q => e (R q)))) e g G := by
  intro q
  obtain ⟨s1, G, s2, s3⟩ := q.sound nr e g (angleThen_good h1 R hp)
  have hl : -1 < -(1 - b) := by linarith
  have hu : 1 - b < 1 := by linarith
  have hx : Differentiable ℝ fun e : ι → ℝ => phiCos fun q => e (R q) := by unfold phiCos; fun_prop
  have hψ := hasDerivAt_acosFrozen hl hu (phiCos fun q => e (R q))
  refine ⟨?_, G, s2, ?_⟩
  · rw [s1, angleThen_runR, acosFrozen_self, hP.self_of_nhds]
  · refine swap_deriv (T := fun z => ∑ k, g k * T z k) (x := fun e => phiCos fun q => e (R q)) (φ := acosExtrapElem (-(1 - b)) (1 - b)) ?_ (hx e)
      (hasDerivAt_acosExtrap hl (by linarith) hu _) hψ rfl ?_
    · exact DifferentiableAt.fun_sum fun k _ => (hT k).const_mul _
    · refine s3.congr_of_eventuallyEq ?_
      have hc : ContinuousAt (fun e' => (e', acosFrozen (-(1 - b)) (1 - b) (phiCos fun q' => e (R q')) (phiCos fun q' => e' (R q')))) e :=
        continuousAt_id.prodMk (ContinuousAt.comp (f := fun e' : ι → ℝ => phiCos fun q' => e' (R q')) hψ.continuousAt (hx e).continuousAt)
      have := hc.eventually hP
      filter_upwards [this] with e' he'
      rw [← he', angleThen_runR]

/-! ## relative angle -/

theorem relAngle_good (e : E3 ⊕ E3 → ℝ) (g : Unit → ℝ) : (relAngle e).Good nr e g := by
  unfold relAngle
  refine Prog.good_stage (fun p => e (inl (p.1.1, p.2)) * e (inr (p.1.2, p.2))) (fun _ => rfl) ?_ fun _ w _ => good_mul _ _
  refine Prog.good_stage (relEntries e) (fun p => by simp [Op.evalR, relEntries, Fin.sum_univ_three]; try ring) ?_ fun _ w _ => good_lin _ _
  exact angleThen_good (b := 1e-4) (by norm_num) inr (p := .ret inr) (e := Sum.elim (Sum.elim e _) (relEntries e)) trivial

theorem relAngle_runR (e0 e : E3 ⊕ E3 → ℝ) : (relAngle e0).runR e
    = fun _ => acosFrozen (-(1 - 1e-4)) (1 - 1e-4) (phiCos (relEntries e0)) (phiCos (relEntries e)) := by
  unfold relAngle
  rw [Prog.runR_stage (fun p => e (inl (p.1.1, p.2)) * e (inr (p.1.2, p.2))) (fun _ => rfl),
    Prog.runR_stage (relEntries e) (fun p => by simp [Op.evalR, relEntries, Fin.sum_univ_three]; try ring), angleThen_runR]
  rfl

/-! ## logarithm -/

/-- the computed angle of every accepted matrix stays away from the multiples of pi -/
theorem sin_extrap_gt {x : ℝ} (h1 : -1 - 5e-5 ≤ x) (h2 : x ≤ 1 + 5e-5) : 0.002 < Real.sin (acosExtrapElem (-(1 - 1e-4)) (1 - 1e-4) x) := by
  set u : ℝ := 1 - 1e-4 with hu
  set s := Real.sqrt (1 - u * u) with hs
  have hs2 : s ^ 2 = 1.9999e-4 := by
    rw [hs, Real.sq_sqrt] <;> rw [hu] <;> norm_num
  have hs0 : 0 ≤ s := Real.sqrt_nonneg _
  have hs1 : 0.014 < s := by nlinarith
  have hs3 : s < 0.0142 := by nlinarith
  have hsin : Real.sin (Real.arccos u) = s := by rw [Real.sin_arccos, hs]; congr 1; ring
  have ha0 : 0 ≤ Real.arccos u := Real.arccos_nonneg u
  have ha1 : s ≤ Real.arccos u := by rw [← hsin]; exact Real.sin_le ha0
  have ha2 : Real.arccos u ≤ Real.pi / 2 := Real.arccos_le_pi_div_two.2 (by rw [hu]; norm_num)
  clear_value s u
  have key : ∀ y, u ≤ y → y ≤ 1 + 5e-5 → 0.002 < Real.sin (acosLinearApproximation y u) := by
    intro y hy1 hy2
    have e : acosLinearApproximation y u = Real.arccos u - (y - u) / s := by
      unfold acosLinearApproximation dacosDx; rw [← hs]; ring
    rw [e]
    have hq : (y - u) / s ≤ 1.5e-4 / s := by
      apply div_le_div_of_nonneg_right _ hs0
      rw [hu] at *; norm_num at hy1 hy2 ⊢; linarith
    have hq0 : 0 ≤ (y - u) / s := div_nonneg (by linarith) hs0
    have hq1 : 1.5e-4 / s ≤ s - 0.0035 := by
      rw [div_le_iff₀ (by linarith)]
      nlinarith
    have hlow : 0.0035 ≤ Real.arccos u - (y - u) / s := by linarith
    have hm := Real.mul_le_sin (x := Real.arccos u - (y - u) / s) (by norm_num at hlow ⊢; linarith) (by linarith)
    refine lt_of_lt_of_le ?_ hm
    have hpi := Real.pi_lt_d2
    have h6 : (0.6 : ℝ) < 2 / Real.pi := by
      rw [lt_div_iff₀ Real.pi_pos]; norm_num at hpi ⊢; linarith
    calc (0.002 : ℝ) < 0.6 * 0.0035 := by norm_num
      _ ≤ 2 / Real.pi * (Real.arccos u - (y - u) / s) := by
        apply mul_le_mul h6.le hlow (by norm_num) (by positivity)
  unfold acosExtrapElem
  split_ifs with c1 c2
  · have e : acosLinearApproximation x (-u) = Real.pi - acosLinearApproximation (-x) u := by
      unfold acosLinearApproximation dacosDx
      rw [Real.arccos_neg, neg_mul_neg]; ring
    rw [e, Real.sin_pi_sub]
    exact key _ (by linarith) (by linarith)
  · exact key _ c2 h2
  · rw [Real.sin_arccos]
    have : s ≤ Real.sqrt (1 - x ^ 2) := by rw [hs]; exact Real.sqrt_le_sqrt (by rw [not_le] at c1 c2; nlinarith)
    norm_num at hs1 ⊢; linarith

/-- `phi_denom` with recorded sign -/
noncomputable def frozenDenom (eps s φ : ℝ) : ℝ := max |Real.sin φ| eps * signR s + (if s = 0 then 1 else 0) * eps

theorem frozenDenom_eq {eps s φ : ℝ} (hs : 0 < s) (h : eps < Real.sin φ) (h0 : 0 < Real.sin φ) : frozenDenom eps s φ = Real.sin φ := by
  simp [frozenDenom, signR, hs, hs.ne', abs_of_pos h0, max_eq_left h.le]

/-- where `hat_inv` reads -/
def readAt : Fin 3 → E3 := ![(2, 1), (0, 2), (1, 0)]

@[simp] theorem readAt_0 : readAt 0 = (2, 1) := rfl
@[simp] theorem readAt_1 : readAt 1 = (0, 2) := rfl
@[simp] theorem readAt_2 : readAt 2 = (1, 0) := rfl

theorem logTail_runR (eps s : ℝ) (e : ((E3 ⊕ Unit) ⊕ Unit) ⊕ Unit → ℝ) : (logTail eps s).runR e = fun k =>
    e (inr ()) / (2 * frozenDenom eps s (e (inr ()))) * (e (inl (inl (inl (readAt k)))) - e (inl (inl (inl ((readAt k).2, (readAt k).1))))) := by
  unfold logTail
  set φ := e (inr ()) with hφ
  rw [Prog.runR_stage (fun _ => Real.sin φ) (fun _ => rfl), Prog.runR_stage (fun _ => |Real.sin φ|) (fun _ => rfl),
    Prog.runR_stage (fun _ => max |Real.sin φ| eps) (fun _ => rfl), Prog.runR_stage (fun _ => signR s) (fun _ => by simp [Op.evalR]),
    Prog.runR_stage (fun _ => max |Real.sin φ| eps * signR s) (fun _ => rfl),
    Prog.runR_stage (fun _ => frozenDenom eps s φ) (fun _ => by simp [Op.evalR, frozenDenom]; ring),
    Prog.runR_stage (fun _ => 2 * frozenDenom eps s φ) (fun _ => by simp [Op.evalR]),
    Prog.runR_stage (fun _ => φ / (2 * frozenDenom eps s φ)) (fun _ => rfl),
    Prog.runR_stage (fun p => e (inl (inl (inl p))) - e (inl (inl (inl (p.2, p.1))))) (fun _ => by simp [Op.evalR]; ring),
    Prog.runR_stage (fun p => φ / (2 * frozenDenom eps s φ) * (e (inl (inl (inl p))) - e (inl (inl (inl (p.2, p.1)))))) (fun _ => rfl)]
  rfl

theorem logTail_good {eps s : ℝ} (hs : 0 < s) {e : ((E3 ⊕ Unit) ⊕ Unit) ⊕ Unit → ℝ} (h : eps < Real.sin (e (inr ()))) (h0 : 0 < Real.sin (e (inr ())))
    (g : Fin 3 → ℝ) : (logTail eps s).Good nr e g := by
  unfold logTail
  set φ := e (inr ()) with hφ
  have hden := frozenDenom_eq hs h h0
  refine Prog.good_stage (fun _ => Real.sin φ) (fun _ => rfl) ?_ fun _ w _ => good_sin _
  refine Prog.good_stage (fun _ => |Real.sin φ|) (fun _ => rfl) ?_ fun _ w _ => good_abs h0.ne'
  refine Prog.good_stage (fun _ => max |Real.sin φ| eps) (fun _ => rfl) ?_ fun _ w _ => good_clampMin (by
    show |Real.sin φ| ≠ eps
    rw [abs_of_pos h0]; exact h.ne')
  refine Prog.good_stage (fun _ => signR s) (fun _ => by simp [Op.evalR]) ?_ fun _ w _ => good_lin _ _
  refine Prog.good_stage (fun _ => max |Real.sin φ| eps * signR s) (fun _ => rfl) ?_ fun _ w _ => good_mul _ _
  refine Prog.good_stage (fun _ => frozenDenom eps s φ) (fun _ => by simp [Op.evalR, frozenDenom]; ring) ?_ fun _ w _ => good_lin _ _
  refine Prog.good_stage (fun _ => 2 * frozenDenom eps s φ) (fun _ => by simp [Op.evalR]) ?_ fun _ w _ => good_lin _ _
  refine Prog.good_stage (fun _ => φ / (2 * frozenDenom eps s φ)) (fun _ => rfl) ?_ fun _ w _ => good_div (by
    show 2 * frozenDenom eps s φ ≠ 0
    rw [hden]; positivity)
  refine Prog.good_stage (fun p => e (inl (inl (inl p))) - e (inl (inl (inl (p.2, p.1))))) (fun _ => by simp [Op.evalR]; ring) ?_ fun _ w _ => good_lin _ _
  exact Prog.good_stage _ (fun _ => rfl) trivial fun _ w _ => good_mul _ _

theorem extrap_one_mem : 0 < acosExtrapElem (-(1 - 1e-4)) (1 - 1e-4) 1 ∧ acosExtrapElem (-(1 - 1e-4)) (1 - 1e-4) 1 ≤ 0.0226 := by
  rw [acosExtrapElem, if_neg (by norm_num), if_pos (by norm_num)]
  set u : ℝ := 1 - 1e-4 with hu
  set s := Real.sqrt (1 - u * u) with hs
  have hs2 : s ^ 2 = 1.9999e-4 := by
    rw [hs, Real.sq_sqrt] <;> rw [hu] <;> norm_num
  have hs0 : 0 ≤ s := Real.sqrt_nonneg _
  have hs1 : 0.014 < s := by nlinarith
  have hs3 : s < 0.0142 := by nlinarith
  have hsin : Real.sin (Real.arccos u) = s := by rw [Real.sin_arccos, hs]; congr 1; ring
  have ha0 : 0 ≤ Real.arccos u := Real.arccos_nonneg u
  have ha1 : s ≤ Real.arccos u := by rw [← hsin]; exact Real.sin_le ha0
  have ha2 : Real.arccos u ≤ Real.pi / 2 := Real.arccos_le_pi_div_two.2 (by rw [hu]; norm_num)
  have ha3 := Real.mul_le_sin ha0 ha2
  rw [hsin] at ha3
  have e : acosLinearApproximation 1 u = Real.arccos u - (1 - u) / s := by
    unfold acosLinearApproximation dacosDx; rw [← hs]; ring
  rw [e]
  have hq0 : 0 ≤ (1 - u) / s := div_nonneg (by rw [hu]; norm_num) hs0
  have hq1 : (1 - u) / s ≤ 0.0072 := by
    rw [div_le_iff₀ (by norm_num at hs1 ⊢; linarith), hu]
    norm_num at hs1 ⊢; linarith
  have ha4 : Real.arccos u ≤ 0.0226 := by
    have hpi := Real.pi_lt_d2
    have h6 : (0.63 : ℝ) < 2 / Real.pi := by
      rw [lt_div_iff₀ Real.pi_pos]; norm_num at hpi ⊢; linarith
    have := mul_le_mul_of_nonneg_right h6.le ha0
    clear_value s u
    norm_num at hs3 ⊢; linarith
  clear_value s u
  constructor
  · norm_num at hs1 hq1; linarith
  · linarith

/-- what `so3_log_map` computes -/
noncomputable def logOf (eps : ℝ) (R : E3 → ℝ) (k : Fin 3) : ℝ :=
  let φ := acosExtrapElem (-(1 - 1e-4)) (1 - 1e-4) (phiCos R)
  φ / (2 * phiDenom φ eps) * (R (readAt k) - R ((readAt k).2, (readAt k).1))

/-- what it computes from the entries and the angle away from the multiples of pi -/
noncomputable def logT (z : (E3 → ℝ) × ℝ) (k : Fin 3) : ℝ := z.2 / (2 * Real.sin z.2) * (z.1 (readAt k) - z.1 ((readAt k).2, (readAt k).1))

theorem logT_diff {z : (E3 → ℝ) × ℝ} (h : Real.sin z.2 ≠ 0) (k : Fin 3) : DifferentiableAt ℝ (fun z => logT z k) z := by
  unfold logT
  fun_prop (disch := simpa using h)

theorem log_vjp {b eps : ℝ} (hb0 : 0 < b) (hb1 : b ≤ 1) {R : E3 → ℝ} {φ : ℝ} (hφ : φ = acosExtrapElem (-(1 - b)) (1 - b) (phiCos R))
    (heps : eps < Real.sin φ) (hpos : 0 < Real.sin φ) (g : Fin 3 → ℝ) :
    (angleThen b (phiCos R) id (logTail eps (Real.sin φ))).run (up R) = up (logT (R, φ)) ∧
    ∃ G, (angleThen b (phiCos R) id (logTail eps (Real.sin φ))).back nr (up R) (up g) = up G ∧
      IsVJP (fun E => logT (E, acosExtrapElem (-(1 - b)) (1 - b) (phiCos E))) R g G := by
  have hev : ∀ᶠ y : ℝ in 𝓝 φ, eps < Real.sin y ∧ 0 < Real.sin y := by
    have c : ContinuousAt Real.sin φ := Real.continuous_sin.continuousAt
    exact (c.eventually (lt_mem_nhds heps)).and (c.eventually (lt_mem_nhds hpos))
  have hP : ∀ᶠ z : (E3 → ℝ) × ℝ in 𝓝 (R, φ), (logTail eps (Real.sin φ)).runR (angleEnv id z.1 z.2) = logT z := by
    have c : ContinuousAt (fun z : (E3 → ℝ) × ℝ => z.2) (R, φ) := continuousAt_snd
    filter_upwards [c.eventually hev] with z hz
    rw [logTail_runR]
    funext k
    simp only [angleEnv, Sum.elim_inr, Sum.elim_inl, logT]
    rw [frozenDenom_eq hpos hz.1 hz.2]
  have e1 : eps < Real.sin (angleEnv id R φ (inr ())) := heps
  have e2 : 0 < Real.sin (angleEnv id R φ (inr ())) := hpos
  have hgood := logTail_good (nr := nr) hpos e1 e2 g
  have hd := logT_diff (z := (R, φ)) hpos.ne'
  subst hφ
  exact angleThen_vjp (nr := nr) hb0 hb1 id hgood logT hd hP

theorem logOf_eq {eps : ℝ} {R : E3 → ℝ} (h : eps < Real.sin (acosExtrapElem (-(1 - 1e-4)) (1 - 1e-4) (phiCos R)))
    (h0 : 0 < Real.sin (acosExtrapElem (-(1 - 1e-4)) (1 - 1e-4) (phiCos R))) :
    logT (R, acosExtrapElem (-(1 - 1e-4)) (1 - 1e-4) (phiCos R)) = logOf eps R := by
  have h := frozenDenom_eq h0 h h0
  unfold frozenDenom at h
  funext k
  unfold logT logOf phiDenom
  simp only [h]

theorem logMap_vjp {eps : ℝ} (heps : eps ≤ 0.002) {R : E3 → ℝ} (h1 : -1 - 5e-5 ≤ phiCos R) (h2 : phiCos R ≤ 1 + 5e-5) (g : Fin 3 → ℝ) :
    (logMap eps R).run (up R) = up (logOf eps R) ∧ ∃ G, (logMap eps R).back nr (up R) (up g) = up G ∧ IsVJP (logOf eps) R g G := by
  have hsin := sin_extrap_gt h1 h2
  have hpos := lt_trans (by norm_num : (0 : ℝ) < 0.002) hsin
  have heps' := lt_of_le_of_lt heps hsin
  obtain ⟨r1, G, r2, r3⟩ := log_vjp (nr := nr) (b := 1e-4) (by norm_num) (by norm_num) rfl heps' hpos g
  have hev : ∀ᶠ E : E3 → ℝ in 𝓝 R, logT (E, acosExtrapElem (-(1 - 1e-4)) (1 - 1e-4) (phiCos E)) = logOf eps E := by
    have hx : Differentiable ℝ fun e : E3 → ℝ => phiCos e := by unfold phiCos; fun_prop
    have c : ContinuousAt (fun E : E3 → ℝ => Real.sin (acosExtrapElem (-(1 - 1e-4)) (1 - 1e-4) (phiCos E))) R :=
      Real.continuous_sin.continuousAt.comp (ContinuousAt.comp (f := fun E : E3 → ℝ => phiCos E)
        (hasDerivAt_acosExtrap (by norm_num) (by norm_num) (by norm_num) _).continuousAt (hx R).continuousAt)
    filter_upwards [c.eventually (lt_mem_nhds heps'), c.eventually (lt_mem_nhds hpos)] with E a b
    exact logOf_eq a b
  refine ⟨?_, G, r2, ?_⟩
  · rw [← hev.self_of_nhds]; exact r1
  · refine HasFDerivAt.congr_of_eventuallyEq r3 ?_
    filter_upwards [hev] with E hE
    rw [← hE]

end AD

theorem acosLin_ok {ι : Type} {xs ys : ι → ℝ} {bound : Bound} (h : acosLinearExtrapolation xs bound = .ok ys) :
    bound.unpack.1 ≤ bound.unpack.2 ∧ ys = fun i => acosExtrapElem bound.unpack.1 bound.unpack.2 (xs i) := by
  simp only [acosLinearExtrapolation] at h
  split_ifs at h with h1 h2
  injection h with h
  exact ⟨not_lt.1 h1, h.symm⟩

theorem rotAngle_acc {N : ℕ} {R : Fin N → M3} {eps b : ℝ} (hb : 0 < b) {φ : Fin N → ℝ} (h : so3RotationAngle R eps false b = .ok φ) :
    b ≤ 1 ∧ (∀ n, -1 - eps ≤ trOf (ent (R n)) ∧ trOf (ent (R n)) ≤ 3 + eps) ∧
      φ = fun n => acosExtrapElem (-(1 - b)) (1 - b) (phiCos (ent (R n))) := by
  unfold so3RotationAngle at h
  simp only [Bool.false_eq_true, if_false, hb, if_true] at h
  split_ifs at h with h0
  obtain ⟨h1, h2⟩ := acosLin_ok h
  simp only [not_exists, not_or, not_lt] at h0
  simp only [Bound.unpack] at h1 h2
  exact ⟨by linarith, h0, h2⟩

/-- C119: `so3_rotation_angle` with a positive `cos_bound`.  There is one function that the call evaluates for every batch it accepts, and for every
element of every such batch the gradient is finite and is the derivative of that function, also for no rotation and for half turns. -/
theorem C119_rotation_angle {eps b : ℝ} (hb : 0 < b) : ∃ f : (E3 → ℝ) → Unit → ℝ,
    ∀ {N : ℕ} {R : Fin N → M3} {φ : Fin N → ℝ}, so3RotationAngle R eps false b = .ok φ → ∀ (n : Fin N) (nr : NormRule) (g : Unit → ℝ),
      f (ent (R n)) () = φ n ∧ (AD.rotAngle b (ent (R n))).run (up (ent (R n))) = up (fun _ => φ n) ∧
      ∃ G, (AD.rotAngle b (ent (R n))).back nr (up (ent (R n))) (up g) = up G ∧ IsVJP f (ent (R n)) g G := by
  refine ⟨fun E _ => acosExtrapElem (-(1 - b)) (1 - b) (phiCos E), fun {N R φ} h n nr g => ?_⟩
  obtain ⟨h1, -, rfl⟩ := rotAngle_acc hb h
  have := angleThen_vjp (nr := nr) hb h1 id (p := .ret inr) (e := ent (R n)) (g := g) trivial (fun z _ => z.2)
    (fun _ => differentiableAt_snd) (Eventually.of_forall fun z => rfl)
  exact ⟨rfl, this.1, this.2⟩

/-- no rotation and a half turn are accepted -/
example : ∃ φ, so3RotationAngle ![(1 : M3), Matrix.diagonal ![1, -1, -1]] 1e-4 false 1e-4 = .ok φ := by
  refine ⟨_, so3RotationAngle_ok fun n => ?_⟩
  fin_cases n <;> simp [cosOf] <;> norm_num

/-- C119: `so3_relative_angle`, with respect to both arguments. -/
theorem C119_relative_angle : ∃ f : (E3 ⊕ E3 → ℝ) → Unit → ℝ,
    ∀ {N : ℕ} {R1 R2 : Fin N → M3} {φ : Fin N → ℝ}, so3RelativeAngle R1 R2 false = .ok φ → ∀ (n : Fin N) (nr : NormRule) (g : Unit → ℝ),
      let x := Sum.elim (ent (R1 n)) (ent (R2 n))
      f x () = φ n ∧ (relAngle x).run (up x) = up (fun _ => φ n) ∧ ∃ G, (relAngle x).back nr (up x) (up g) = up G ∧ IsVJP f x g G := by
  refine ⟨fun E _ => acosExtrapElem (-(1 - 1e-4)) (1 - 1e-4) (phiCos (relEntries E)), fun {N R1 R2 φ} h n nr g => ?_⟩
  obtain ⟨-, -, rfl⟩ := rotAngle_acc (by norm_num) h
  intro x
  have hx : phiCos (relEntries x) = phiCos (ent (R1 n * (R2 n).transpose)) := by
    simp only [phiCos, relEntries, ent, Matrix.mul_apply, Matrix.transpose_apply]; rfl
  obtain ⟨s1, G, s2, s3⟩ := (relAngle x).sound nr x g (relAngle_good x g)
  refine ⟨by beta_reduce; rw [hx], ?_, G, s2, ?_⟩
  · rw [s1, relAngle_runR, acosFrozen_self, hx]
  · have hd : Differentiable ℝ fun e : E3 ⊕ E3 → ℝ => phiCos (relEntries e) := by unfold phiCos relEntries; fun_prop
    refine swap_deriv (T := fun z => ∑ k, g k * z.2) (x := fun e => phiCos (relEntries e)) (φ := acosExtrapElem (-(1 - 1e-4)) (1 - 1e-4)) (by fun_prop)
      (hd x) (hasDerivAt_acosExtrap (by norm_num) (by norm_num) (by norm_num) _)
      (hasDerivAt_acosFrozen (l := -(1 - 1e-4)) (u := 1 - 1e-4) (by norm_num) (by norm_num) _) rfl ?_
    simpa only [relAngle_runR] using s3

/-- equal and opposite rotations are accepted -/
example : ∃ φ, so3RelativeAngle ![(1 : M3), Matrix.diagonal ![1, -1, -1]] ![1, 1] false = .ok φ := by
  refine ⟨_, so3RotationAngle_ok fun n => ?_⟩
  fin_cases n <;> simp [cosOf, Matrix.mul_apply, Fin.sum_univ_three] <;> norm_num

/-- C119: `so3_log_map` with an `eps` of at most 0.002 (the default is 0.0001), for every matrix it accepts, the identity and half turns included. -/
theorem C119_log_map {eps : ℝ} (heps : eps ≤ 0.002) : ∃ f : (E3 → ℝ) → Fin 3 → ℝ,
    ∀ {N : ℕ} {R : Fin N → M3} {v : Fin N → V3}, so3LogMap R eps = .ok v → ∀ (n : Fin N) (nr : NormRule) (g : Fin 3 → ℝ),
      f (ent (R n)) = v n ∧ (logMap eps (ent (R n))).run (up (ent (R n))) = up (v n) ∧
      ∃ G, (logMap eps (ent (R n))).back nr (up (ent (R n))) (up g) = up G ∧ IsVJP f (ent (R n)) g G := by
  refine ⟨logOf eps, fun {N R v} h n nr g => ?_⟩
  unfold so3LogMap at h
  obtain ⟨φ, hφ, h⟩ := bind_eq_ok.1 h
  obtain ⟨-, htr, rfl⟩ := rotAngle_acc (by norm_num) hφ
  unfold hatInv at h
  split_ifs at h
  injection h with h
  have hval : ∀ k, logOf eps (ent (R n)) k = v n k := by
    intro k
    rw [← h]
    fin_cases k <;> rfl
  have ht := htr n
  unfold trOf at ht
  obtain ⟨a, c⟩ := logMap_vjp (nr := nr) heps (R := ent (R n)) (by unfold phiCos; norm_num at ht ⊢; linarith)
    (by unfold phiCos; norm_num at ht ⊢; linarith) g
  refine ⟨funext hval, ?_, c⟩
  rw [a]
  exact congrArg up (funext hval)

/-- no rotation and a half turn are accepted -/
example : ∃ v, so3LogMap ![(1 : M3), Matrix.diagonal ![1, -1, -1]] 1e-4 = .ok v := by
  refine ⟨_, so3LogMap_ok (by norm_num) (fun n => ?_) _⟩
  fin_cases n <;> simp [cosOf] <;> norm_num

/-- C119: `so3_log_map` at no rotation.  The gradient is a multiple of the cross product matrix of the incoming gradient, and the factor is the exact one, 1/2,
to four digits. -/
theorem C119_log_map_identity {eps : ℝ} (heps : eps ≤ 0.002) : ∃ c : ℝ, |c - 1 / 2| ≤ 1e-4 ∧ ∀ (nr : NormRule) (g : V3),
    (logMap eps (ent 1)).run (up (ent 1)) = up 0 ∧
    (logMap eps (ent 1)).back nr (up (ent 1)) (up g) = up fun p => c * (Matrix.of fun i j => crossProduct g (Pi.single j 1) i : M3) p.1 p.2 := by
  have hx : phiCos (ent 1) = 1 := by simp [phiCos, ent]; norm_num
  refine ⟨acosExtrapElem (-(1 - 1e-4)) (1 - 1e-4) 1 / (2 * phiDenom (acosExtrapElem (-(1 - 1e-4)) (1 - 1e-4) 1) eps), ?_, fun nr g => ?_⟩
  · have hsin := sin_extrap_gt (x := 1) (by norm_num) (by norm_num)
    have hpos := lt_trans (by norm_num : (0 : ℝ) < 0.002) hsin
    have hden := frozenDenom_eq hpos (lt_of_le_of_lt heps hsin) hpos
    rw [show phiDenom (acosExtrapElem (-(1 - 1e-4)) (1 - 1e-4) 1) eps = _ from hden]
    obtain ⟨h1, h2⟩ := extrap_one_mem
    generalize acosExtrapElem (-(1 - 1e-4)) (1 - 1e-4) 1 = φ at *
    have h3 := Real.sin_gt_sub_cube (x := φ) h1
    have h4 := Real.sin_le h1.le
    have e : φ / (2 * Real.sin φ) - 1 / 2 = (φ - Real.sin φ) / (2 * Real.sin φ) := by field_simp
    rw [e, abs_of_nonneg (div_nonneg (by linarith) (by linarith)), div_le_iff₀ (by linarith)]
    have h5 : φ ^ 3 / 6 ≤ 0.0001 * φ := by
      have : φ ^ 2 ≤ 0.0006 := by nlinarith
      nlinarith
    norm_num at h5 ⊢
    linarith
  · obtain ⟨a, G, b, hG⟩ := logMap_vjp (nr := nr) heps (R := ent 1) (by rw [hx]; norm_num) (by rw [hx]; norm_num) g
    refine ⟨?_, ?_⟩
    · rw [a]
      congr 1
      funext k
      obtain rfl | rfl | rfl : k = 0 ∨ k = 1 ∨ k = 2 := by omega
      all_goals simp only [logOf, readAt_0, readAt_1, readAt_2]
      all_goals simp [ent]
    · rw [b]
      congr 1
      funext j
      have hj := vjp_entry hG j
      rw [show (Matrix.of fun i j => crossProduct g (Pi.single j 1) i : M3) = hatV g from (hatV_eq g).symm]
      set c := acosExtrapElem (-(1 - 1e-4)) (1 - 1e-4) 1 / (2 * phiDenom (acosExtrapElem (-(1 - 1e-4)) (1 - 1e-4) 1) eps) with hc
      have hl : ∀ s, (∑ k, g k * logOf eps (Function.update (ent 1) j s) k) = c * hatV g j.1 j.2 * s := by
        intro s
        obtain ⟨i, k⟩ := j
        by_cases hik : i = k
        · subst hik
          simp only [logOf, Fin.sum_univ_three, readAt_0, readAt_1, readAt_2]
          fin_cases i <;> simp [hatV, Function.update, ent]
        · have hp : phiCos (Function.update (ent 1) (i, k) s) = 1 := by
            rw [← hx]
            unfold phiCos
            rw [Function.update_of_ne, Function.update_of_ne, Function.update_of_ne] <;> (intro hh; rw [Prod.mk.injEq] at hh; exact hik (hh.1.symm.trans hh.2))
          simp only [logOf, hp, ← hc, Fin.sum_univ_three, readAt_0, readAt_1, readAt_2]
          fin_cases i <;> fin_cases k <;> simp [hatV, Function.update, ent] at hik ⊢ <;> ring
      simp only [hl] at hj
      have := (hasDerivAt_id (ent 1 j)).const_mul (c * hatV g j.1 j.2)
      simpa using hj.unique this

/-- C119: with `cos_bound <= 0` the gradient is the derivative of the angle strictly between no rotation and half a turn; at those two rotations every
diagonal entry of the matrix receives an infinite or undefined gradient. -/
theorem C119_rotation_angle_unbounded (nr : NormRule) (R : M3) (g : ℝ) :
    (-1 < R.trace → R.trace < 3 → rotAngleRaw.run (up (ent R)) = up (fun _ => Real.arccos ((R.trace - 1) / 2)) ∧
      ∃ G, rotAngleRaw.back nr (up (ent R)) (up fun _ => g) = up G ∧
        IsVJP (fun (E : E3 → ℝ) (_ : Unit) => Real.arccos (((Matrix.of fun i j => E (i, j) : M3).trace - 1) / 2)) (ent R) (fun _ => g) G) ∧
    (R.trace = 3 ∨ R.trace = -1 → ∀ i r, rotAngleRaw.back nr (up (ent R)) (up fun _ => g) (i, i) ≠ .fin r) := by
  have htr : trOf (ent R) = R.trace := by simp [trOf, Matrix.trace, Fin.sum_univ_three]
  have hrun : ∀ E, rotAngleRaw.runR E = fun _ => Real.arccos (((Matrix.of fun i j => E (i, j) : M3).trace - 1) / 2) := by
    intro E
    unfold rotAngleRaw
    rw [Prog.runR_stage (fun _ => trOf E) (fun _ => by simp [Op.evalR, trOf]; try ring),
      Prog.runR_stage (fun _ => phiCos E) (fun _ => by simp [Op.evalR, trOf, phiCos]; ring)]
    have : phiCos E = ((Matrix.of fun i j => E (i, j) : M3).trace - 1) / 2 := by
      simp [phiCos, Matrix.trace, Fin.sum_univ_three]; ring
    simp only [Prog.runR, Op.evalR, Sum.elim_inr, this]
  constructor
  · intro h1 h2
    have hgood : rotAngleRaw.Good nr (ent R) fun _ => g := by
      unfold rotAngleRaw
      refine Prog.good_stage (fun _ => trOf (ent R)) (fun _ => by simp [Op.evalR, trOf]; try ring) ?_ fun _ w _ => good_lin _ _
      refine Prog.good_stage (fun _ => (R.trace - 1) / 2) (fun _ => by simp [Op.evalR, htr]; ring) ?_ fun _ w _ => good_lin _ _
      refine Prog.good_stage _ (fun _ => rfl) trivial fun _ w _ => good_acos ?_ ?_
      · show -1 < (R.trace - 1) / 2; linarith
      · show (R.trace - 1) / 2 < 1; linarith
    exact vjp hgood hrun
  · intro h i r
    have hx : ((R.trace - 1) / 2) * ((R.trace - 1) / 2) = 1 := by rcases h with h | h <;> rw [h] <;> norm_num
    fin_cases i <;> simp [rotAngleRaw, Prog.back, Op.eval, Op.pull, total, up]
    all_goals
      simp only [AD.mul, fin_add, Fl.neg]
      rw [show 1 + -((-0.5 + 0.5 * (0 + (1 * ent R (0, 0) + (1 * ent R (1, 1) + 1 * ent R (2, 2))))) *
        (-0.5 + 0.5 * (0 + (1 * ent R (0, 0) + (1 * ent R (1, 1) + 1 * ent R (2, 2)))))) = 0 by
          rw [← htr, trOf] at hx
          linear_combination -hx]
      simp only [AD.sqrt, lt_irrefl, if_false, Real.sqrt_zero, AD.div, if_true, infTimes, zero_lt_one, AD.mul]
      rcases lt_trichotomy g 0 with h0 | h0 | h0
      · norm_num [h0, not_lt.2 h0.le, infTimes, AD.mul]; nofun
      · norm_num [h0, infTimes, AD.mul]; nofun
      · norm_num [h0, not_lt.2 h0.le, infTimes, AD.mul]; nofun

end PK
