import Verif.Lemmas.IKLocal

/-!
# C107: the solver converges from every start close to a solution
-/

namespace PK
open Spec Matrix Filter Topology Classical

variable {N R d : ℕ}

/-! ## learning rates -/

theorem lineSearch_loop_bounds (ls : LineSearch) (h0 : 0 < ls.decrease) (h1 : ls.decrease ≤ 1) (err : Fin N → Fin R → Fl)
    (errAt : Fin N → Fin R → ℝ → Fl) (i : Fin N) (r : Fin R) : ∀ (n : ℕ) (st : (Fin N → Fin R → ℝ) × (Fin N → Fin R → Bool)) {a b : ℝ},
    0 ≤ a → a ≤ st.1 i r → st.1 i r ≤ b →
    a * ls.decrease ^ n ≤ (ls.loop err errAt n st).1 i r ∧ (ls.loop err errAt n st).1 i r ≤ b
  | 0, st, a, b, _, h2, h3 => by simpa [LineSearch.loop] using ⟨h2, h3⟩
  | n + 1, st, a, b, ha, h2, h3 => by
    rw [LineSearch.loop]
    have hd := pow_le_one₀ (n := n) h0.le h1
    split_ifs with hex
    · have hp : a * ls.decrease ≤ (ls.pass err errAt st).1 i r ∧ (ls.pass err errAt st).1 i r ≤ b := by
        simp only [LineSearch.pass]
        split_ifs
        · exact ⟨by nlinarith, h3⟩
        · exact ⟨by nlinarith, by nlinarith⟩
      have := lineSearch_loop_bounds ls h0 h1 err errAt i r n (ls.pass err errAt st) (by positivity) hp.1 hp.2
      rw [pow_succ', ← mul_assoc]; exact this
    · refine ⟨?_, h3⟩
      have := pow_le_one₀ (n := n + 1) h0.le h1
      nlinarith

/-- learning rates at most 2, and positive ones after the line search -/
def IKParams.RatesOk (p : IKParams d) : Prop :=
  match p.lineSearch with
  | none => 0 < p.lr ∧ p.lr ≤ 2
  | some ls => 0 < ls.maxLr ∧ ls.maxLr ≤ 2 ∧ 0 < ls.decrease ∧ ls.decrease ≤ 1

/-- the smallest learning rate -/
noncomputable def IKParams.minRate (p : IKParams d) : ℝ :=
  match p.lineSearch with
  | none => p.lr
  | some ls => ls.maxLr * ls.decrease ^ ls.maxIter

theorem IKParams.RatesOk.min_pos {p : IKParams d} (h : p.RatesOk) : 0 < p.minRate := by
  unfold IKParams.RatesOk at h
  unfold IKParams.minRate
  cases hl : p.lineSearch with
  | none => rw [hl] at h; exact h.1
  | some ls =>
    rw [hl] at h
    obtain ⟨h1, -, h3, -⟩ := h
    dsimp only
    positivity

theorem IKParams.RatesOk.bounds {p : IKParams d} (h : p.RatesOk) (ev : Eval N d) (q : Fin N → Fin R → QRow d)
    (out : Fin N → Fin R → QRow d × (Fin 6 → Fl)) (rem : Fin N → Bool) (i : Fin N) (r : Fin R) :
    p.minRate ≤ p.rates ev q out rem i r ∧ p.rates ev q out rem i r ≤ 2 := by
  unfold IKParams.RatesOk at h
  unfold IKParams.minRate IKParams.rates
  cases hl : p.lineSearch with
  | none => rw [hl] at h; exact ⟨le_rfl, h.2⟩
  | some ls =>
    rw [hl] at h
    obtain ⟨h1, h2, h3, h4⟩ := h
    exact lineSearch_loop_bounds ls h3 h4 _ _ i r _ _ h1.le le_rfl h2

theorem body_q_rate (p : IKParams d) (h : p.RatesOk) (ev : Eval N d) (st : IKState N R d) (i : Fin N) (r : Fin R) :
    ∃ c, p.minRate ≤ c ∧ c ≤ 2 ∧ (p.body ev st).q i r =
      if p.clamps then p.clampRow (stepRow c (st.q i r) (ev i (st.q i r)).1) else stepRow c (st.q i r) (ev i (st.q i r)).1 := by
  refine ⟨_, (h.bounds ev st.q (fun i r => ev i (st.q i r)) (p.watch st.progress (fun i r => errNorm (ev i (st.q i r)).2)
    ({ st.sol with iterations := st.sol.iterations + 1 }.update p.posTol p.rotTol st.q (fun i r => (ev i (st.q i r)).2) p.esAny)).2.remaining
    i r).1, (h.bounds _ _ _ _ i r).2, ?_⟩
  by_cases hc : p.clamps = true
  · simp only [IKParams.body, hc, if_true]
  · simp only [IKParams.body, hc]; rfl

/-! ## the loop near a solution -/

theorem norm_fin6 (v : Fin 6 → ℝ) : errNorm (fun a => .fin (v a)) = .fin (norm6 v) := by
  have : ∀ a, v a * v a = v a * v a := fun _ => rfl
  simp [errNorm, Fl.norm, Fl.isFinite, norm6, Fin.sum_univ_six, add_assoc]

theorem vlen_head_le (v : Fin 6 → ℝ) : vlen ![v 0, v 1, v 2] ≤ norm6 v := by
  refine Real.sqrt_le_sqrt ?_
  simp only [Fin.sum_univ_six, Matrix.cons_val_zero, Matrix.cons_val_one, Matrix.cons_val]
  nlinarith [mul_self_nonneg (v 3), mul_self_nonneg (v 4), mul_self_nonneg (v 5)]

theorem vlen_tail_le (v : Fin 6 → ℝ) : vlen ![v 3, v 4, v 5] ≤ norm6 v := by
  refine Real.sqrt_le_sqrt ?_
  simp only [Fin.sum_univ_six, Matrix.cons_val_zero, Matrix.cons_val_one, Matrix.cons_val]
  nlinarith [mul_self_nonneg (v 0), mul_self_nonneg (v 1), mul_self_nonneg (v 2)]

/-- What the loop needs to know about a set `W` of joint values: steps stay in it and shrink the weighted error. -/
structure Attracts (ev : Eval N d) (i : Fin N) (w : Option (Fin 6 → ℝ)) (a : ℝ) (W : Set (Fin d → ℝ)) (ρ : ℝ)
    (dq : (Fin d → ℝ) → Fin d → ℝ) (dx : (Fin d → ℝ) → Fin 6 → ℝ) : Prop where
  rho_nonneg : 0 ≤ ρ
  rho_lt : ρ < 1
  eval : ∀ x, ev i (fun j => .fin (x j)) = (fun j => .fin (dq x j), fun a => .fin (dx x a))
  bounded : ∀ x ∈ W, norm6 (weightDx w (dx x)) ≤ 1
  step : ∀ x ∈ W, ∀ c, a ≤ c → c ≤ 2 →
    x + c • dq x ∈ W ∧ norm6 (weightDx w (dx (x + c • dq x))) ≤ ρ * norm6 (weightDx w (dx x))

/-- clamping does nothing in `W` -/
def IKParams.Inside (p : IKParams d) (W : Set (Fin d → ℝ)) : Prop :=
  ∀ x ∈ W, p.clampRow (fun j => .fin (x j)) = fun j => .fin (x j)

section
variable {p : IKParams d} {ev : Eval N d} {i : Fin N} {w : Option (Fin 6 → ℝ)} {a : ℝ} {W : Set (Fin d → ℝ)} {ρ : ℝ}
  {dq : (Fin d → ℝ) → Fin d → ℝ} {dx : (Fin d → ℝ) → Fin 6 → ℝ}

theorem Attracts.stepRow_eq (h : Attracts ev i w a W ρ dq dx) (c : ℝ) (x : Fin d → ℝ) :
    stepRow c (fun j => .fin (x j)) (ev i (fun j => .fin (x j))).1 = fun j => .fin ((x + c • dq x) j) := by
  rw [h.eval]
  funext j
  simp [stepRow, Fl.mulReal, Fl.add]

theorem Attracts.body (h : Attracts ev i w a W ρ dq dx) (hr : p.RatesOk) (ha : a ≤ p.minRate)
    (hcl : p.clamps = true → p.Inside W)
    {st : IKState N R d} {r : Fin R} {x : Fin d → ℝ} (hx : x ∈ W) (hq : st.q i r = fun j => .fin (x j)) :
    ∃ y ∈ W, (p.body ev st).q i r = (fun j => .fin (y j)) ∧ norm6 (weightDx w (dx y)) ≤ ρ * norm6 (weightDx w (dx x)) := by
  obtain ⟨c, c1, c2, e⟩ := body_q_rate p hr ev st i r
  obtain ⟨s1, s2⟩ := h.step x hx c (ha.trans c1) c2
  refine ⟨_, s1, ?_, s2⟩
  rw [e, hq, h.stepRow_eq]
  split_ifs with hc
  · exact hcl hc _ s1
  · rfl

theorem Attracts.iterate (h : Attracts ev i w a W ρ dq dx) (hr : p.RatesOk) (ha : a ≤ p.minRate)
    (hcl : p.clamps = true → p.Inside W)
    {st : IKState N R d} {r : Fin R} {x : Fin d → ℝ} (hx : x ∈ W) (hq : st.q i r = fun j => .fin (x j)) (k : ℕ) :
    ∃ y ∈ W, ((p.body ev)^[k] st).q i r = (fun j => .fin (y j)) ∧ norm6 (weightDx w (dx y)) ≤ ρ ^ k := by
  induction k with
  | zero => exact ⟨x, hx, hq, by simpa using h.bounded x hx⟩
  | succ k ih =>
    obtain ⟨y, y1, y2, y3⟩ := ih
    rw [Function.iterate_succ_apply']
    obtain ⟨z, z1, z2, z3⟩ := h.body hr ha hcl y1 y2
    refine ⟨z, z1, z2, z3.trans ?_⟩
    rw [pow_succ']
    exact mul_le_mul_of_nonneg_left y3 h.rho_nonneg

/-- the clamped refinement steps -/
theorem Attracts.refine (h : Attracts ev i w a W ρ dq dx) (ha : a ≤ p.lr) (h2 : p.lr ≤ 2) (hcl : p.Inside W)
    {x : Fin d → ℝ} (hx : x ∈ W) (k : ℕ) :
    ∃ y ∈ W, (p.refine ev i)^[k] (fun j => .fin (x j)) = (fun j => .fin (y j)) ∧ norm6 (weightDx w (dx y)) ≤ ρ ^ k := by
  induction k with
  | zero => exact ⟨x, hx, rfl, by simpa using h.bounded x hx⟩
  | succ k ih =>
    obtain ⟨y, y1, y2, y3⟩ := ih
    rw [Function.iterate_succ_apply', y2]
    obtain ⟨s1, s2⟩ := h.step y y1 p.lr ha h2
    refine ⟨_, s1, ?_, s2.trans ?_⟩
    · rw [IKParams.refine, h.stepRow_eq]; exact hcl _ s1
    · rw [pow_succ']
      exact mul_le_mul_of_nonneg_left y3 h.rho_nonneg

end

/-- recorded solutions are among the joint values visited -/
theorem solutions_visited (p : IKParams d) (ev : Eval N d) (i : Fin N) (r : Fin R) (S : Set (QRow d)) (st : IKState N R d)
    (h0 : st.sol.conv i r = true → st.sol.solutions i r ∈ S) (k : ℕ) (hq : ∀ j ≤ k, ((p.body ev)^[j] st).q i r ∈ S) :
    ((p.body ev)^[k] st).sol.conv i r = true → ((p.body ev)^[k] st).sol.solutions i r ∈ S := by
  induction k with
  | zero => exact h0
  | succ k ih =>
    intro _
    rw [Function.iterate_succ_apply']
    have ih' := ih fun j hj => hq j (by omega)
    have hqk := hq k (by omega)
    set s' := (p.body ev)^[k] st with hs'
    have hu := (update_fields p.posTol p.rotTol { s'.sol with iterations := s'.sol.iterations + 1 } s'.q
      (fun i r => (ev i (s'.q i r)).2) p.esAny none).2.1
    have : (if s'.sol.conv i r = true then s'.sol.solutions i r else s'.q i r) ∈ S := by
      split_ifs with hc
      · exact ih' hc
      · exact hqk
    rcases body_sol p ev s' with e | ⟨m, e⟩ <;> rw [e] <;> first | (rw [hu]; exact this) | exact (congrFun (congrFun hu i) r ▸ this)

/-- the retry satisfies both tolerances at these values -/
theorem small_converged {p : IKParams d} {ev : Eval N d} {i : Fin N} {x : Fin d → ℝ} {dq : Fin d → ℝ} {dx : Fin 6 → ℝ}
    (he : ev i (fun j => .fin (x j)) = (fun j => .fin (dq j), fun a => .fin (dx a)))
    (h1 : norm6 dx < p.posTol) (h2 : norm6 dx < p.rotTol) :
    (decide (Fl.lt (Fl.norm [(ev i (fun j => .fin (x j))).2 0, (ev i (fun j => .fin (x j))).2 1, (ev i (fun j => .fin (x j))).2 2]) (.fin p.posTol)) &&
     decide (Fl.lt (Fl.norm [(ev i (fun j => .fin (x j))).2 3, (ev i (fun j => .fin (x j))).2 4, (ev i (fun j => .fin (x j))).2 5]) (.fin p.rotTol))) = true := by
  rw [he]
  dsimp only
  rw [norm_fin3, norm_fin3]
  simp only [Fl.lt, Bool.and_eq_true, decide_eq_true_eq]
  exact ⟨decide_eq_true ((vlen_head_le dx).trans_lt h1), decide_eq_true ((vlen_tail_le dx).trans_lt h2)⟩

theorem body_convAny (p : IKParams d) (ev : Eval N d) (st : IKState N R d) :
    (p.body ev st).sol.convAny = fun i => st.sol.convAny i || decide (∃ r,
      (decide (Fl.lt (Fl.norm [(ev i (st.q i r)).2 0, (ev i (st.q i r)).2 1, (ev i (st.q i r)).2 2]) (.fin p.posTol)) &&
       decide (Fl.lt (Fl.norm [(ev i (st.q i r)).2 3, (ev i (st.q i r)).2 4, (ev i (st.q i r)).2 5]) (.fin p.rotTol))) = true) := by
  have h := (update_fields p.posTol p.rotTol { st.sol with iterations := st.sol.iterations + 1 } st.q
    (fun i r => (ev i (st.q i r)).2) p.esAny none).2.2.2.2.2.2.2.1
  rcases body_sol p ev st with e | ⟨m, e⟩ <;> rw [e] <;> exact h

/-- the early stopping rules that leave a problem with an improving retry in the loop: none, or, with equal weights of all
error components, the default `"any"`, or `"all"` with one retry -/
def IKParams.Patient (p : IKParams d) (R : ℕ) (w : Option (Fin 6 → ℝ)) : Prop :=
  p.noImp = none ∨ ((∀ a, wVec w a = wVec w 0) ∧ 0 ≤ p.patience ∧ (p.noImp = some .any ∨ R = 1 ∧ p.noImp = some .all))

theorem norm6_equal_weights {w : Option (Fin 6 → ℝ)} (h : ∀ a, wVec w a = wVec w 0) (v : Fin 6 → ℝ) :
    norm6 (weightDx w v) = |wVec w 0| * norm6 v := by
  rw [norm6, norm6, ← Real.sqrt_mul_self_eq_abs, ← Real.sqrt_mul (mul_self_nonneg _), Finset.mul_sum]
  congr 1
  refine Finset.sum_congr rfl fun a _ => ?_
  rw [weightDx_apply, h a]; ring

theorem norm6_weight_le {w : Option (Fin 6 → ℝ)} (hw : ∀ a, wVec w a ≠ 0) :
    ∃ C > 0, ∀ v, norm6 v ≤ C * norm6 (weightDx w v) := by
  have hnn : ∀ a, 0 ≤ |wVec w a|⁻¹ := fun a => inv_nonneg.2 (abs_nonneg _)
  have hsn : 0 ≤ ∑ a, |wVec w a|⁻¹ := Finset.sum_nonneg fun a _ => hnn a
  refine ⟨1 + ∑ a, |wVec w a|⁻¹, by linarith, fun v => norm6_mono (by linarith) fun a => ?_⟩
  rw [weightDx_apply, abs_mul]
  have h1 := Finset.single_le_sum (f := fun a => |wVec w a|⁻¹) (fun a _ => hnn a) (Finset.mem_univ a)
  have h2 : |v a| = |wVec w a|⁻¹ * (|wVec w a| * |v a|) := by
    rw [← mul_assoc, inv_mul_cancel₀ (abs_ne_zero.2 (hw a)), one_mul]
  nth_rw 1 [h2]
  exact mul_le_mul_of_nonneg_right (by linarith) (by positivity)

/-- progress bookkeeping while the error of a retry falls -/
def ProgressOk (p : IKParams d) (e : ℝ) (i : Fin N) (r : Fin R) (pr : Option (Progress N R)) : Prop :=
  p.noImp = none ∨ pr = none ∨ ∃ cnt em m, pr = some (cnt, em) ∧ em i r = .fin m ∧ (e < m ∨ e = 0)

theorem Attracts.flags {p : IKParams d} {ev : Eval N d} {i : Fin N} {w : Option (Fin 6 → ℝ)} {a : ℝ} {W : Set (Fin d → ℝ)} {ρ : ℝ}
    {dq : (Fin d → ℝ) → Fin d → ℝ} {dx : (Fin d → ℝ) → Fin 6 → ℝ} (h : Attracts ev i w a W ρ dq dx) (hr : p.RatesOk)
    (ha : a ≤ p.minRate) (hcl : p.clamps = true → p.Inside W) (hw : ∀ a, wVec w a ≠ 0) (hp : p.Patient R w) (hpt : 0 < p.posTol) (hrt : 0 < p.rotTol) {st : IKState N R d} {r : Fin R} {x : Fin d → ℝ} (hx : x ∈ W)
    (hq : st.q i r = fun j => .fin (x j)) (hrem : st.sol.remaining i = true) (hpr : ProgressOk p (norm6 (dx x)) i r st.progress) :
    (p.body ev st).sol.convAny i = true ∨ ((p.body ev st).sol.remaining i = true ∧
      ∃ y ∈ W, (p.body ev st).q i r = (fun j => .fin (y j)) ∧ ProgressOk p (norm6 (dx y)) i r (p.body ev st).progress) := by
  obtain ⟨y, y1, y2, y3⟩ := h.body hr ha hcl hx hq
  by_cases hc : (p.body ev st).sol.convAny i = true
  · exact .inl hc
  refine .inr ?_
  rw [body_convAny] at hc
  simp only [Bool.or_eq_true, not_or, decide_eq_true_eq, not_exists] at hc
  obtain ⟨-, hc⟩ := hc
  have hne : norm6 (dx x) ≠ 0 := by
    intro h0
    apply hc r
    rw [hq]
    exact small_converged (h.eval x) (by rw [h0]; exact hpt) (by rw [h0]; exact hrt)
  have hs1 := (update_fields p.posTol p.rotTol { st.sol with iterations := st.sol.iterations + 1 } st.q
    (fun i r => (ev i (st.q i r)).2) p.esAny none).2.2.2.2.2.2.2.2.2.2
  set s1 := ({ st.sol with iterations := st.sol.iterations + 1 } : Sol N R d).update p.posTol p.rotTol st.q
    (fun i r => (ev i (st.q i r)).2) p.esAny with hs1d
  have hr1 : s1.remaining i = true := by
    rw [hs1]
    split_ifs
    · simp only [hrem, Bool.true_and, Option.getD_none, Bool.not_eq_true', decide_eq_false_iff_not, not_exists]
      exact hc
    · exact hrem
  have herr : errNorm (ev i (st.q i r)).2 = .fin (norm6 (dx x)) := by rw [hq, h.eval]; exact norm_fin6 _
  have hb1 : (p.body ev st).sol = (p.watch st.progress (fun i r => errNorm (ev i (st.q i r)).2) s1).2 := rfl
  have hb2 : (p.body ev st).progress = (p.watch st.progress (fun i r => errNorm (ev i (st.q i r)).2) s1).1 := rfl
  rw [hb1, hb2]
  rcases hp with hn | ⟨hwe, hpat, hmode⟩
  · unfold IKParams.watch
    rw [hn]
    exact ⟨hr1, y, y1, y2, .inl hn⟩
  have hdec : norm6 (dx y) < norm6 (dx x) ∨ norm6 (dx y) = 0 := by
    left
    have h1 : norm6 (dx y) ≤ ρ * norm6 (dx x) := by
      rw [norm6_equal_weights hwe, norm6_equal_weights hwe] at y3
      have := abs_pos.2 (hw 0)
      by_contra hn
      push Not at hn
      nlinarith
    have h2 : 0 < norm6 (dx x) := lt_of_le_of_ne (norm6_nonneg _) (Ne.symm hne)
    nlinarith [h.rho_lt]
  obtain ⟨mode, hm, hkeep⟩ : ∃ mode, p.noImp = some mode ∧ ∀ could : Fin N → Fin R → Bool, could i r = true → mode.keep could i = true := by
    rcases hmode with hm | ⟨hR, hm⟩
    · exact ⟨_, hm, fun could hc => by simp only [NoImp.keep, decide_eq_true_eq]; exact ⟨r, hc⟩⟩
    · subst hR
      refine ⟨_, hm, fun could hc => ?_⟩
      simp only [NoImp.keep, decide_eq_true_eq]
      intro r'
      rw [Subsingleton.elim r' r]; exact hc
  unfold IKParams.watch
  rw [hm]
  rcases hpr with hn | hn | ⟨cnt, em, m, e1, e2, e3⟩
  · rw [hm] at hn; cases hn
  · rw [hn]
    exact ⟨hr1, y, y1, y2, .inr (.inr ⟨_, _, _, rfl, herr, hdec⟩)⟩
  · rw [e1]
    simp only [progressStep]
    have himp : decide (Fl.lt (errNorm (ev i (st.q i r)).2) (em i r)) = true := by
      rw [herr, e2]
      exact decide_eq_true (show norm6 (dx x) < m from e3.resolve_right hne)
    refine ⟨?_, y, y1, y2, .inr (.inr ⟨_, _, norm6 (dx x), rfl, ?_, hdec⟩)⟩
    · simp only [Sol.keep, hr1, Bool.true_and]
      apply hkeep
      simp only [himp, if_true]
      simpa using hpat
    · simp only [himp, if_true]; exact herr

/-! ## limits near a solution -/

theorem clamp_near {lo hi : Fl} {s : ℝ} (h1 : Fl.lt lo (.fin s)) (h2 : Fl.lt (.fin s) hi) :
    ∀ᶠ y in 𝓝 s, Fl.clamp (.fin y) lo hi = .fin y := by
  have ha : ∀ᶠ y in 𝓝 s, Fl.max (.fin y) lo = .fin y := by
    cases lo with
    | nan => exact absurd h1 (by simp [Fl.lt])
    | pinf => exact absurd h1 (by simp [Fl.lt])
    | ninf => exact Eventually.of_forall fun y => by simp [Fl.max, Fl.lt]
    | fin l =>
      have h1 : l < s := h1
      filter_upwards [eventually_gt_nhds h1] with y hy
      simp [Fl.max, Fl.lt, not_lt.2 hy.le]
  have hb : ∀ᶠ y in 𝓝 s, Fl.min (.fin y) hi = .fin y := by
    cases hi with
    | nan => exact absurd h2 (by simp [Fl.lt])
    | ninf => exact absurd h2 (by simp [Fl.lt])
    | pinf => exact Eventually.of_forall fun y => by simp [Fl.min, Fl.lt]
    | fin l =>
      have h2 : s < l := h2
      filter_upwards [eventually_lt_nhds h2] with y hy
      simp [Fl.min, Fl.lt, not_lt.2 hy.le]
  filter_upwards [ha, hb] with y e1 e2
  rw [Fl.clamp, e1, e2]

/-- strictly inside the limits -/
def IKParams.StrictlyInside (p : IKParams d) (x : Fin d → ℝ) : Prop :=
  ∀ j, Fl.lt (p.low j) (.fin (x j)) ∧ Fl.lt (.fin (x j)) (p.high j)

theorem inside_near {p : IKParams d} {x : Fin d → ℝ} (h : p.StrictlyInside x) : ∃ U ∈ 𝓝 x, p.Inside U := by
  refine ⟨{y | p.clampRow (fun j => .fin (y j)) = fun j => .fin (y j)}, ?_, fun y hy => hy⟩
  have : ∀ j, ∀ᶠ y in 𝓝 x, Fl.clamp (.fin (y j)) (p.low j) (p.high j) = .fin (y j) := fun j =>
    (continuous_apply j).continuousAt.eventually (clamp_near (h j).1 (h j).2)
  filter_upwards [eventually_all.2 this] with y hy
  funext j
  exact hy j

theorem roundEven_zero {x : ℝ} (h : |x| < 1 / 2) : Fl.roundEven x = 0 := by
  have h1 := roundEven_near x
  have h2 : |(Fl.roundEven x : ℝ)| < 1 := by
    have := abs_sub_abs_le_abs_sub (Fl.roundEven x : ℝ) x
    rw [abs_sub_comm] at this
    linarith
  have h3 : |Fl.roundEven x| < 1 := by exact_mod_cast h2
  exact Int.abs_lt_one_iff.1 h3

/-- revolute joints closer than half a turn to the middle of their limits -/
def IKParams.NearMiddle (p : IKParams d) (x : Fin d → ℝ) : Prop :=
  ∀ j, p.revolute j = true → ∃ l h, p.low j = .fin l ∧ p.high j = .fin h ∧ |(l + h) / 2 - x j| < Real.pi

theorem wrap_near {p : IKParams d} {x : Fin d → ℝ} (h : p.NearMiddle x) :
    ∀ᶠ y in 𝓝 x, p.wrapRow (fun j => .fin (y j)) = fun j => .fin (y j) := by
  have : ∀ j, ∀ᶠ y in 𝓝 x, p.wrapRow (fun j => .fin (y j)) j = .fin (y j) := by
    intro j
    by_cases hr : p.revolute j = true
    · obtain ⟨l, u, e1, e2, e3⟩ := h j hr
      have hc : ContinuousAt (fun y : Fin d → ℝ => |(l + u) / 2 - y j|) x :=
        ((continuous_const.sub (continuous_apply j)).abs).continuousAt
      filter_upwards [hc.eventually_lt_const e3] with y hy
      simp only [IKParams.wrapRow, hr, if_true, e1, e2, Fl.add, Fl.scalePos, Fl.sub, Fl.neg, Fl.round]
      have hp := Real.pi_pos
      rw [roundEven_zero]
      · simp
      · rw [show 1 / (2 * Real.pi) * (1 / 2 * (l + u) + -y j) = ((l + u) / 2 - y j) / (2 * Real.pi) by ring, abs_div,
          abs_of_pos (by positivity : (0 : ℝ) < 2 * Real.pi), div_lt_iff₀ (by positivity)]
        linarith
    · exact Eventually.of_forall fun y => by simp [IKParams.wrapRow, hr]
  filter_upwards [eventually_all.2 this] with y hy
  funext j
  exact hy j

/-! ## chains -/

/-- steps from joint values near a nonsingular solution -/
theorem attracts_near {root rf fe : Frame} {rootName : Name} {path : List Frame} (h : WF root) (hr : RigidTree root)
    (hs : StartsAt root rf rootName) (hp : IsPath rf path) (hl : path.getLast? = some fe)
    (hd : d = (pathJoints path).length) {targets : Fin N → M4}
    {s : SerialChain} (hse : SerialChain.init root fe.name rootName = .ok s) {reg lm : ℝ} (hreg : 0 < reg)
    {w : Option (Fin 6 → ℝ)} (hw : ∀ a, wVec w a ≠ 0) {ev : Eval N d} (hev : Realises s targets reg lm w ev) (i : Fin N)
    {sol : Fin d → ℝ} {J : List (Fin 1 → Fin 6 → ℝ)}
    (hsol : s.jacobian (.tensor 1 (List.ofFn fun j _ => sol j)) = .ok ⟨1, J, fun _ => targets i⟩)
    (hns : (∀ y : Fin 6 → ℝ, ∃ v, ∀ a, jacTimes J 0 v a = y a) ∨
      (∀ v, (∀ a, jacTimes J 0 v a = 0) → ∀ k < d, v k = 0)) {a : ℝ} (ha : 0 < a) :
    ∃ ρ dq dx, ∀ U ∈ 𝓝 sol, ∃ W ∈ 𝓝 sol, W ⊆ U ∧ Attracts ev i w a W ρ dq dx := by
  obtain ⟨rest, rfl⟩ := isPath_head hp
  have hws := serialRoot_wf (h.sub hs.1) hp
  have hrs := serialRoot_rigid (hr.sub hs.1) hp
  obtain rfl := Except.ok.inj (hse.symm.trans (serialInit_ok h hs hp hl rfl))
  have hlen : ∀ x : Fin d → ℝ, (List.ofFn fun j (_ : Fin 1) => x j).length = (pathJoints (rf :: rest)).length := by
    intro x; rw [List.length_ofFn, hd]
  set E : (Fin d → ℝ) → M4 := fun x =>
    poseAt (serialRoot rf rest) (List.ofFn fun j (_ : Fin 1) => x j) (posOf (serialRoot rf rest) (lastName rf rest)) 0 with hE
  obtain ⟨fl, -, hfn, hfm⟩ := exists_last rf rest
  have hrig : ∀ x, IsRigid (E x) := by
    intro x
    obtain ⟨pp, hpp, hpl⟩ := exists_path hfm
    simp only [hE]
    rw [← hfn, hws.pose_path _ hpp hpl]
    exact pathT_rigid hrs _ (isPath_mem hpp)
  set Jm : (Fin d → ℝ) → Matrix (Fin 6) (Fin d) ℝ := fun q => Matrix.of fun k (j : Fin d) =>
    ((jacCols rf rest (List.ofFn fun j (_ : Fin 1) => q j)).getD j fun _ _ => 0) 0 k with hJm
  have hJl : ∀ q : Fin d → ℝ, (jacCols rf rest (List.ofFn fun j (_ : Fin 1) => q j)).length = d := fun q => by
    rw [jacCols, List.length_map, dofFrames_length, hd]
  have hjac : J = jacCols rf rest (List.ofFn fun j (_ : Fin 1) => sol j) ∧ targets i = E sol := by
    rw [SerialChain.jacobian, jacobianTensor_ok hws _ (hlen sol)] at hsol
    have := Except.ok.inj hsol
    simp only [Sigma.mk.injEq, heq_eq_eq, true_and, Prod.mk.injEq] at this
    exact ⟨this.1.symm, (congrFun this.2 0).symm⟩
  obtain ⟨rfl, htE⟩ := hjac
  have hmul : ∀ (q : Fin d → ℝ) (v : ℕ → ℝ) (a : Fin 6),
      jacTimes (jacCols rf rest (List.ofFn fun j (_ : Fin 1) => q j)) 0 v a = (Jm q *ᵥ fun j : Fin d => v j) a := by
    intro q v a
    rw [jacTimes, hJl, Finset.sum_range, Matrix.mulVec, dotProduct]
    exact Finset.sum_congr rfl fun k _ => by simp [hJm]
  have hJ : ∀ v, HasTwistAt (fun t : ℝ => E (sol + t • v)) ![(Jm sol *ᵥ v) 0, (Jm sol *ᵥ v) 1, (Jm sol *ᵥ v) 2]
      ![(Jm sol *ᵥ v) 3, (Jm sol *ᵥ v) 4, (Jm sol *ᵥ v) 5] 0 := by
    intro v
    have hv := velocity_core hws hrs (B := 1) (fun t => List.ofFn fun j (_ : Fin 1) => (sol + t • v) j) (fun t => hlen _) 0 0
      (fun k => if hk : k < d then v ⟨k, hk⟩ else 0) (fun k hk => by
        rw [← hd] at hk
        rw [dif_pos hk]; simpa using line_curve sol v 0 k hk 0)
    have hq0 : sol + (0 : ℝ) • v = sol := by simp
    simp only [hmul, hq0] at hv
    have e : (fun j : Fin d => if hk : j.val < d then v ⟨j, hk⟩ else 0) = v := by funext j; simp
    rw [e] at hv
    exact hv
  have hns' : Function.Surjective (fun v => Jm sol *ᵥ v) ∨ Function.Injective (fun v => Jm sol *ᵥ v) := by
    rcases hns with h1 | h1
    · left
      intro y
      obtain ⟨v, hv⟩ := h1 y
      exact ⟨fun j => v j, funext fun a => by rw [← hv a, hmul]⟩
    · right
      intro v v' hvv
      have hz : Jm sol *ᵥ (v - v') = 0 := by rw [Matrix.mulVec_sub]; exact sub_eq_zero.2 hvv
      have := h1 (fun k => if hk : k < d then (v - v') ⟨k, hk⟩ else 0) (fun a => by
        rw [hmul]
        have e : (fun j : Fin d => if hk : j.val < d then (v - v') ⟨j, hk⟩ else 0) = v - v' := by funext j; simp
        rw [e, hz]; rfl)
      funext j
      have hj := this j j.2
      rw [dif_pos j.2] at hj
      exact sub_eq_zero.1 hj
  obtain ⟨ρ, r1, r2, r3⟩ := ik_local (E := E) (fun i l => by
      have := contDiff_poseAt (k := 1) hws hfm (d := d) i l
      rw [hfn] at this
      exact this) hrig (Jm := Jm)
    (fun a j => (contDiff_jacCols (k := 1) hws (d := d) j a).continuous) hJ hreg (lm := lm) hw hns' ha
  rw [← htE] at r3
  refine ⟨ρ, fun x => (ikStepKernel (E x) (posPart (targets i)) (matrixToQuaternion (rotPart (targets i))) (Jm x) reg lm w).1,
    fun x => (ikStepKernel (E x) (posPart (targets i)) (matrixToQuaternion (rotPart (targets i))) (Jm x) reg lm w).2, fun U hU => ?_⟩
  obtain ⟨W, w1, w2, w3⟩ := r3 U hU
  refine ⟨W, w1, w2, r1, r2, fun x => ?_, fun x hx => (w3 x hx).1, fun x hx c c1 c2 => (w3 x hx).2 c c1 c2⟩
  obtain ⟨J, m, e1, e2, e3⟩ := hev.finite i x
  rw [jacobianTensor_ok hws _ (hlen x)] at e1
  obtain ⟨rfl, rfl⟩ := Prod.mk.inj (Except.ok.inj e1)
  exact e3

/-- a ball inside a neighbourhood, by coordinates -/
theorem box_of_nhds {sol : Fin d → ℝ} {W : Set (Fin d → ℝ)} (h : W ∈ 𝓝 sol) :
    ∃ δ > 0, ∀ x : Fin d → ℝ, (∀ j, |x j - sol j| < δ) → x ∈ W := by
  obtain ⟨δ, h1, h2⟩ := Metric.mem_nhds_iff.1 h
  refine ⟨δ, h1, fun x hx => h2 ?_⟩
  rw [Metric.mem_ball, dist_pi_lt_iff h1]
  exact hx

theorem nhds_of_box {sol : Fin d → ℝ} {ε : ℝ} (h : 0 < ε) : {x : Fin d → ℝ | ∀ j, |x j - sol j| < ε} ∈ 𝓝 sol := by
  refine Filter.mem_of_superset (Metric.ball_mem_nhds sol h) fun x hx j => ?_
  rw [Metric.mem_ball, dist_pi_lt_iff h] at hx
  exact hx j

/-- C107: inverse kinematics converges locally.  Let `sol` be joint values that reach the target of problem `i`, and let the
Jacobian there have full rank: its columns are independent or its rows are.  With a positive regularisation, positive
weights and learning rates in `(0, 2]` (with a line search: all the rates it can try), and without limits in the way, there
is for every `ε` a distance `δ`, **the same for all tolerances**, such that a retry started closer than `δ` to `sol` is
reported as converged once the iteration budget is large enough for the tolerances, at joint values closer than `ε` to `sol`.
Early stopping on convergence of another retry, or the default early stopping on missing improvement, do not prevent the
problem from being reported as converged. -/
theorem C107_local_convergence {root rf fe : Frame} {rootName : Name} {path : List Frame} (h : WF root) (hr : RigidTree root)
    (hs : StartsAt root rf rootName) (hp : IsPath rf path) (hl : path.getLast? = some fe)
    (hd : d = (pathJoints path).length) {targets : Fin N → M4}
    {s : SerialChain} (hse : SerialChain.init root fe.name rootName = .ok s) {reg lm : ℝ} (hreg : 0 < reg)
    {w : Option (Fin 6 → ℝ)} (hw : ∀ a, wVec w a ≠ 0) {ev : Eval N d} (hev : Realises s targets reg lm w ev) (i : Fin N)
    {sol : Fin d → ℝ} {J : List (Fin 1 → Fin 6 → ℝ)}
    (hsol : s.jacobian (.tensor 1 (List.ofFn fun j _ => sol j)) = .ok ⟨1, J, fun _ => targets i⟩)
    (hns : (∀ y : Fin 6 → ℝ, ∃ v, ∀ a, jacTimes J 0 v a = y a) ∨
      (∀ v, (∀ a, jacTimes J 0 v a = 0) → ∀ k < d, v k = 0))
    (p : IKParams d) (hrate : p.RatesOk) (hcl : p.clamps = true → p.StrictlyInside sol)
    (hno : p.enforce = false ∨ ∀ j, (p.low j).isFinite = false ∧ (p.high j).isFinite = false)
    {ε : ℝ} (hε : 0 < ε) :
    ∃ δ > 0, ∀ posTol rotTol : ℝ, 0 < posTol → 0 < rotTol → ∃ n, ∀ maxIter ≥ n,
      ∀ (R : ℕ) (q0 : Fin N → Fin R → QRow d) (r : Fin R) (x : Fin d → ℝ), q0 i r = (fun j => .fin (x j)) →
        (∀ j, |x j - sol j| < δ) →
        let t := ({ p with posTol, rotTol, maxIter } : IKParams d).solve ev q0
        (p.noImp = none → p.esAny = false → t.conv i r = true) ∧
        (p.Patient R w → t.convAny i = true) ∧
        ∃ y : Fin d → ℝ, t.solutions i r = (fun j => .fin (y j)) ∧ ∀ j, |y j - sol j| < ε := by
  obtain ⟨ρ, dq, dx, hW⟩ := attracts_near h hr hs hp hl hd hse hreg hw hev i hsol hns hrate.min_pos
  obtain ⟨U, hU, hUin⟩ : ∃ U ∈ 𝓝 sol, p.clamps = true → p.Inside U := by
    by_cases hc : p.clamps = true
    · obtain ⟨U, h1, h2⟩ := inside_near (hcl hc)
      exact ⟨U, h1, fun _ => h2⟩
    · exact ⟨Set.univ, univ_mem, fun h => absurd h hc⟩
  obtain ⟨W, hWn, hWU, hA⟩ := hW _ (inter_mem hU (nhds_of_box (sol := sol) hε))
  obtain ⟨δ, hδ, hball⟩ := box_of_nhds hWn
  obtain ⟨C, hC, hCb⟩ := norm6_weight_le hw
  refine ⟨δ, hδ, fun posTol rotTol hpt hrt => ?_⟩
  obtain ⟨n, hn⟩ := exists_pow_lt_of_lt_one (show 0 < min posTol rotTol / C by positivity) hA.rho_lt
  refine ⟨n, fun maxIter hmax R q0 r x hx hxd => ?_⟩
  intro t
  set p' : IKParams d := { p with posTol, rotTol, maxIter } with hp'
  have hrate' : p'.RatesOk := hrate
  have ha' : p.minRate ≤ p'.minRate := le_rfl
  have hcl' : p'.clamps = true → p'.Inside W := fun hc y hy => hUin hc y (hWU hy).1
  have hxW := hball x hxd
  set st0 : IKState N R d := ⟨q0, Sol.init N R d, none⟩ with hst0
  have hit := fun k => hA.iterate hrate' ha' hcl' (st := st0) hxW hx k
  obtain ⟨k, k1, k2, k3, -⟩ := loop_spec p' ev maxIter st0
  have ht : t = ((p'.body ev)^[k] st0).sol.update posTol rotTol ((p'.body ev)^[k] st0).q
      (fun i r => (ev i (((p'.body ev)^[k] st0).q i r)).2) p.esAny := by
    have hc : (p'.enforce && p'.hasFiniteLimits) = false := by
      rcases hno with h | h
      · simp [hp', h]
      · simp [IKParams.hasFiniteLimits, hp', h]
    simp only [t]
    unfold IKParams.solve IKParams.solveCore
    rw [hc]
    simp only [Bool.false_eq_true, if_false]
    have : p'.loop ev p'.maxIter ⟨q0, Sol.init N R d, none⟩ = (p'.body ev)^[k] st0 := k2
    rw [this]
  obtain ⟨-, u1, -, -, -, -, u2, u3, -⟩ := update_fields posTol rotTol ((p'.body ev)^[k] st0).sol ((p'.body ev)^[k] st0).q
      (fun i r => (ev i (((p'.body ev)^[k] st0).q i r)).2) p.esAny none
  -- after the whole budget the error is below the tolerances
  have hend : maxIter ≤ k → (decide (Fl.lt (Fl.norm [(ev i (((p'.body ev)^[k] st0).q i r)).2 0, (ev i (((p'.body ev)^[k] st0).q i r)).2 1,
      (ev i (((p'.body ev)^[k] st0).q i r)).2 2]) (.fin posTol)) &&
     decide (Fl.lt (Fl.norm [(ev i (((p'.body ev)^[k] st0).q i r)).2 3, (ev i (((p'.body ev)^[k] st0).q i r)).2 4,
      (ev i (((p'.body ev)^[k] st0).q i r)).2 5]) (.fin rotTol))) = true := by
    intro hk
    obtain ⟨y, y1, y2, y3⟩ := hit k
    rw [y2]
    have hle : norm6 (dx y) < min posTol rotTol := by
      have h1 : ρ ^ k ≤ ρ ^ n := pow_le_pow_of_le_one hA.rho_nonneg hA.rho_lt.le (hmax.trans hk)
      have h2 := mul_le_mul_of_nonneg_left ((y3.trans h1)) hC.le
      rw [lt_div_iff₀ hC] at hn
      linarith [hCb (dx y)]
    exact small_converged (p := p') (hA.eval y) (hle.trans_le (min_le_left _ _)) (hle.trans_le (min_le_right _ _))
  refine ⟨fun h1 h2 => ?_, fun hpat => ?_, ?_⟩
  · rw [ht, u2]
    have hk : maxIter ≤ k := by
      by_contra hn
      have hrem := k3 (by omega) i
      rw [k2] at hrem
      have : ∀ m, ((p'.body ev)^[m] st0).sol.remaining i = true := by
        intro m
        induction m with
        | zero => rfl
        | succ m ih =>
          rw [Function.iterate_succ_apply']
          set st := (p'.body ev)^[m] st0
          have hb : (p'.body ev st).sol = (p'.watch st.progress (fun i r => errNorm (ev i (st.q i r)).2)
            ({ st.sol with iterations := st.sol.iterations + 1 }.update posTol rotTol st.q (fun i r => (ev i (st.q i r)).2) p.esAny)).2 := rfl
          rw [hb]
          unfold IKParams.watch
          rw [show p'.noImp = none from h1]
          dsimp only
          rw [(update_fields posTol rotTol { st.sol with iterations := st.sol.iterations + 1 } st.q
            (fun i r => (ev i (st.q i r)).2) p.esAny none).2.2.2.2.2.2.2.2.2.2, h2]
          exact ih
      rw [this] at hrem
      exact absurd hrem (by simp)
    simp only [hend hk, Bool.or_true]
  · rw [ht, u3]
    have hinv : ∀ m, ((p'.body ev)^[m] st0).sol.convAny i = true ∨ (((p'.body ev)^[m] st0).sol.remaining i = true ∧
        ∃ y ∈ W, ((p'.body ev)^[m] st0).q i r = (fun j => .fin (y j)) ∧
          ProgressOk p' (norm6 (dx y)) i r ((p'.body ev)^[m] st0).progress) := by
      intro m
      induction m with
      | zero => exact .inr ⟨rfl, x, hxW, hx, .inr (.inl rfl)⟩
      | succ m ih =>
        rw [Function.iterate_succ_apply']
        rcases ih with hc | ⟨c1, y, y1, y2, y3⟩
        · left
          rw [body_convAny]
          simp [hc]
        · exact hA.flags hrate' ha' hcl' hw hpat hpt hrt y1 y2 c1 y3
    rcases Nat.lt_or_ge k maxIter with hk | hk
    · have hrem := k3 hk i
      rw [k2] at hrem
      rcases hinv k with hc | ⟨c1, -⟩
      · simp only [hc, Bool.true_or]
      · rw [c1] at hrem; exact absurd hrem (by simp)
    · simp only [Bool.or_eq_true, decide_eq_true_eq]
      exact .inr ⟨r, hend hk⟩
  · have hv := solutions_visited p' ev i r ((fun (y : Fin d → ℝ) j => Fl.fin (y j)) '' W) st0 (fun h => by simp [hst0, Sol.init] at h) k
      (fun j _ => by obtain ⟨y, y1, y2, -⟩ := hit j; exact ⟨y, y1, y2.symm⟩)
    rw [ht, u1]
    dsimp only
    split_ifs with hc
    · obtain ⟨y, y1, y2⟩ := hv hc
      exact ⟨y, y2.symm, (hWU y1).2⟩
    · obtain ⟨y, y1, y2, -⟩ := hit k
      exact ⟨y, y2, (hWU y1).2⟩

/-- C107, with limits enforced: if `sol` is strictly inside the limits and its revolute joints are less than half a turn from the
middle of their limits, and the number of refinement steps is large enough for the tolerances, then after the enforcement
every retry started near `sol` is reported as converged near `sol`, for every budget and all early stopping. -/
theorem C107_enforced {root rf fe : Frame} {rootName : Name} {path : List Frame} (h : WF root) (hr : RigidTree root)
    (hs : StartsAt root rf rootName) (hp : IsPath rf path) (hl : path.getLast? = some fe)
    (hd : d = (pathJoints path).length) {targets : Fin N → M4}
    {s : SerialChain} (hse : SerialChain.init root fe.name rootName = .ok s) {reg lm : ℝ} (hreg : 0 < reg)
    {w : Option (Fin 6 → ℝ)} (hw : ∀ a, wVec w a ≠ 0) {ev : Eval N d} (hev : Realises s targets reg lm w ev) (i : Fin N)
    {sol : Fin d → ℝ} {J : List (Fin 1 → Fin 6 → ℝ)}
    (hsol : s.jacobian (.tensor 1 (List.ofFn fun j _ => sol j)) = .ok ⟨1, J, fun _ => targets i⟩)
    (hns : (∀ y : Fin 6 → ℝ, ∃ v, ∀ a, jacTimes J 0 v a = y a) ∨
      (∀ v, (∀ a, jacTimes J 0 v a = 0) → ∀ k < d, v k = 0))
    (p : IKParams d) (hrate : p.RatesOk) (hlr : 0 < p.lr ∧ p.lr ≤ 2) (hin : p.StrictlyInside sol) (hmid : p.NearMiddle sol)
    (hen : p.enforce = true) (hfin : ∃ j, (p.low j).isFinite = true ∨ (p.high j).isFinite = true)
    {ε : ℝ} (hε : 0 < ε) :
    ∃ δ > 0, ∀ posTol rotTol : ℝ, 0 < posTol → 0 < rotTol → ∃ n, ∀ nRefine ≥ n, ∀ maxIter,
      ∀ (R : ℕ) (q0 : Fin N → Fin R → QRow d) (r : Fin R) (x : Fin d → ℝ), q0 i r = (fun j => .fin (x j)) →
        (∀ j, |x j - sol j| < δ) →
        let t := ({ p with posTol, rotTol, maxIter, nRefine } : IKParams d).solve ev q0
        t.conv i r = true ∧ t.convAny i = true ∧
        ∃ y : Fin d → ℝ, t.solutions i r = (fun j => .fin (y j)) ∧ ∀ j, |y j - sol j| < ε := by
  have ha0 : 0 < min p.minRate p.lr := lt_min hrate.min_pos hlr.1
  obtain ⟨ρ, dq, dx, hW⟩ := attracts_near h hr hs hp hl hd hse hreg hw hev i hsol hns ha0
  obtain ⟨U, hU, hUin⟩ := inside_near hin
  obtain ⟨W, hWn, hWU, hA⟩ := hW _ (inter_mem hU (inter_mem (nhds_of_box (sol := sol) hε) (wrap_near hmid)))
  obtain ⟨δ, hδ, hball⟩ := box_of_nhds hWn
  obtain ⟨C, hC, hCb⟩ := norm6_weight_le hw
  refine ⟨δ, hδ, fun posTol rotTol hpt hrt => ?_⟩
  obtain ⟨n, hn⟩ := exists_pow_lt_of_lt_one (show 0 < min posTol rotTol / C by positivity) hA.rho_lt
  refine ⟨n, fun nRefine hmax maxIter R q0 r x hx hxd => ?_⟩
  intro t
  set p' : IKParams d := { p with posTol, rotTol, maxIter, nRefine } with hp'
  have hrate' : p'.RatesOk := hrate
  have ha' : min p.minRate p.lr ≤ p'.minRate := min_le_left _ _
  have hcl' : p'.Inside W := fun y hy => hUin y (hWU hy).1
  have hxW := hball x hxd
  set st0 : IKState N R d := ⟨q0, Sol.init N R d, none⟩ with hst0
  have hit := fun k => hA.iterate hrate' ha' (fun _ => hcl') (st := st0) hxW hx k
  obtain ⟨k, k1, k2, k3, -⟩ := loop_spec p' ev maxIter st0
  have k2' : p'.loop ev p'.maxIter ⟨q0, Sol.init N R d, none⟩ = (p'.body ev)^[k] st0 := k2
  obtain ⟨y, y1, y2⟩ : ∃ y ∈ W, (p'.solveCore ev q0).sol.solutions i r = fun j => .fin (y j) := by
    have u1 := (update_fields posTol rotTol ((p'.body ev)^[k] st0).sol ((p'.body ev)^[k] st0).q
      (fun i r => (ev i (((p'.body ev)^[k] st0).q i r)).2) p.esAny none).2.1
    have hv := solutions_visited p' ev i r ((fun (y : Fin d → ℝ) j => Fl.fin (y j)) '' W) st0 (fun h => by simp [hst0, Sol.init] at h) k
      (fun j _ => by obtain ⟨y, y1, y2, -⟩ := hit j; exact ⟨y, y1, y2.symm⟩)
    unfold IKParams.solveCore
    rw [k2']
    dsimp only
    have e : ∀ b, b = (if ((p'.body ev)^[k] st0).sol.conv i r = true then ((p'.body ev)^[k] st0).sol.solutions i r
        else ((p'.body ev)^[k] st0).q i r) → ∃ y ∈ W, b = fun j => .fin (y j) := by
      intro b hb
      split_ifs at hb with hc
      · obtain ⟨y, y1, y2⟩ := hv hc
        exact ⟨y, y1, hb.trans y2.symm⟩
      · obtain ⟨y, y1, y2, -⟩ := hit k
        exact ⟨y, y1, hb.trans y2⟩
    exact e _ (congrFun (congrFun u1 i) r)
  have ht : t = p'.enforceLimits ev (p'.solveCore ev q0).sol := by
    have hc : (p'.enforce && p'.hasFiniteLimits) = true := by
      simp only [IKParams.hasFiniteLimits, hp', hen, Bool.true_and, Bool.or_eq_true, decide_eq_true_eq]
      obtain ⟨j, hj | hj⟩ := hfin
      · exact .inl ⟨j, hj⟩
      · exact .inr ⟨j, hj⟩
    simp only [t]
    unfold IKParams.solve
    rw [hc]
    rfl
  obtain ⟨z, z1, z2, z3⟩ := hA.refine (p := p') (min_le_right _ _) hlr.2 hcl' y1 nRefine
  have hqz : (p'.refine ev i)^[p'.nRefine] (p'.clampRow (p'.wrapRow ((p'.solveCore ev q0).sol.solutions i r))) = fun j => .fin (z j) := by
    have hwr : p'.wrapRow (fun j => .fin (y j)) = fun j => .fin (y j) := (hWU y1).2.2
    rw [y2, hwr, hcl' y y1]
    exact z2
  have hle : norm6 (dx z) < min posTol rotTol := by
    have h1 : ρ ^ nRefine ≤ ρ ^ n := pow_le_pow_of_le_one hA.rho_nonneg hA.rho_lt.le hmax
    have h2 := mul_le_mul_of_nonneg_left ((z3.trans h1)) hC.le
    rw [lt_div_iff₀ hC] at hn
    linarith [hCb (dx z)]
  have hsm := small_converged (p := p') (hA.eval z) (hle.trans_le (min_le_left _ _)) (hle.trans_le (min_le_right _ _))
  set s0 : Sol N R d := { (p'.solveCore ev q0).sol with
    conv := fun _ _ => false, convAny := fun _ => false, convPos := fun _ _ => false, convRot := fun _ _ => false } with hs0
  set q' : Fin N → Fin R → QRow d := fun i r =>
    (p'.refine ev i)^[p'.nRefine] (p'.clampRow (p'.wrapRow ((p'.solveCore ev q0).sol.solutions i r))) with hq'
  have hq'z : q' i r = fun j => .fin (z j) := hqz
  have ht' : t = s0.update posTol rotTol q' (fun i r => (ev i (q' i r)).2) false := ht
  obtain ⟨-, u1, -, -, -, -, u2, u3, -⟩ := update_fields posTol rotTol s0 q' (fun i r => (ev i (q' i r)).2) false none
  have hsm' : (decide (Fl.lt (Fl.norm [(ev i (q' i r)).2 0, (ev i (q' i r)).2 1, (ev i (q' i r)).2 2]) (.fin posTol)) &&
     decide (Fl.lt (Fl.norm [(ev i (q' i r)).2 3, (ev i (q' i r)).2 4, (ev i (q' i r)).2 5]) (.fin rotTol))) = true := by
    rw [hq'z]; exact hsm
  refine ⟨?_, ?_, z, ?_, (hWU z1).2.1⟩
  · rw [ht', u2]; simp only [hsm', Bool.or_true]
  · rw [ht', u3]
    simp only [Bool.or_eq_true, decide_eq_true_eq]
    exact .inr ⟨r, hsm'⟩
  · rw [ht', u1]
    simp only [hs0, Bool.false_eq_true, if_false]
    exact hq'z

/-! ### the hypotheses are met -/

/-- a rotated unit vector is not zero -/
theorem rot_axis_ne {M : M4} (hM : IsRigid M) {z : V3} (hz : IsUnitV z) : rotPart M *ᵥ z ≠ 0 := by
  intro h0
  have h1 : (rotPart M)ᵀ *ᵥ (rotPart M *ᵥ z) = z := by
    have : (rotPart M)ᵀ * rotPart M = 1 := (Matrix.mem_orthogonalGroup_iff' _ _).1 hM.1.1
    rw [Matrix.mulVec_mulVec, this, Matrix.one_mulVec]
  rw [h0, Matrix.mulVec_zero] at h1
  rw [IsUnitV, ← h1] at hz
  simp at hz

/-- Every chain with one moving joint has a Jacobian of full rank everywhere, so C107 applies to every joint value of it, with the
default learning rate, weights and early stopping. -/
example (root rf fe : Frame) (rootName : Name) (path : List Frame) (h : WF root) (hr : RigidTree root)
    (hs : StartsAt root rf rootName) (hp : IsPath rf path) (hl : path.getLast? = some fe) (h1 : 1 = (pathJoints path).length)
    (sol : ℝ) :
    ∃ (s : SerialChain) (target : M4) (ev : Eval 1 1), SerialChain.init root fe.name rootName = .ok s ∧
      Realises s (fun _ => target) 1e-9 0.1 (some fun _ => 1) ev ∧
      s.fkEnd (.tensor 1 [fun _ => sol]) = .ok ⟨1, fun _ => target⟩ ∧
      ∃ δ > 0, ∀ posTol rotTol : ℝ, 0 < posTol → 0 < rotTol → ∃ n, ∀ maxIter ≥ n, ∀ x : ℝ, |x - sol| < δ →
        let p : IKParams 1 := { low := fun _ => .ninf, high := fun _ => .pinf, revolute := fun _ => true, posTol, rotTol, maxIter,
                                lr := 0.2, lineSearch := none, esAny := false, noImp := some .any, patience := 2, enforce := true,
                                nRefine := 10, clampToLimits := false }
        (p.solve ev fun _ (_ : Fin 1) _ => .fin x).convAny 0 = true := by
  obtain ⟨rest, rfl⟩ := isPath_head hp
  have hws := serialRoot_wf (h.sub hs.1) hp
  have hrs := serialRoot_rigid (hr.sub hs.1) hp
  have hlen : ∀ x : Fin 1 → ℝ, (List.ofFn fun j (_ : Fin 1) => x j).length = (pathJoints (rf :: rest)).length := by
    intro x; rw [List.length_ofFn, ← h1]
  set q : List (Fin 1 → ℝ) := List.ofFn fun (j : Fin 1) (_ : Fin 1) => sol with hq
  set target : M4 := poseAt (serialRoot rf rest) q (posOf (serialRoot rf rest) (lastName rf rest)) 0 with htg
  obtain ⟨s, ev, e1, e2⟩ := realises_exists root rf fe rootName (rf :: rest) h hs hp hl h1 (N := 1) (fun _ => target) 1e-9 0.1
    (some fun _ => 1)
  obtain rfl := Except.ok.inj (e1.symm.trans (serialInit_ok h hs hp hl rfl))
  have hT : poseAt (serialRoot rf rest) q (posOf (serialRoot rf rest) (lastName rf rest)) = fun _ => target := by
    funext b; rw [Subsingleton.elim b 0]
  refine ⟨serialOf rf rest, target, ev, e1, e2, ?_, ?_⟩
  · have := serial_fkEnd hws q (hlen _)
    rw [hT] at this
    simpa [hq] using this
  have hJ : (serialOf rf rest).jacobian (.tensor 1 q) = .ok ⟨1, jacCols rf rest q, fun _ => target⟩ := by
    rw [SerialChain.jacobian, jacobianTensor_ok hws _ (hlen _), hT]; rfl
  have hinj : ∀ v, (∀ a, jacTimes (jacCols rf rest q) 0 v a = 0) → ∀ k < 1, v k = 0 := by
    intro v hv k hk
    obtain rfl : k = 0 := by omega
    have hdl : (dofFrames rf rest).length = 1 := by rw [dofFrames_length, ← h1]
    obtain ⟨f, hf⟩ := List.length_eq_one_iff.1 hdl
    have hfm := dofFrames_mem (rf := rf) (rest := rest) (f := f) (by simp [hf])
    obtain ⟨pp, hpp, hpl⟩ := exists_path hfm.1
    have hrig : IsRigid (poseAt (serialRoot rf rest) q (posOf (serialRoot rf rest) f.name) 0) := by
      rw [hws.pose_path _ hpp hpl]
      exact pathT_rigid hrs _ (isPath_mem hpp)
    have hz := rot_axis_ne hrig (z := f.joint.axis) ?_
    · by_contra hne
      apply hz
      simp only [jacTimes, jacCols, hf, List.map_cons, List.map_nil, List.length_singleton, Finset.range_one,
        Finset.sum_singleton, List.getD_cons_zero, mul_eq_zero, or_iff_left hne] at hv
      funext a
      by_cases ht : f.joint.jtype = .revolute
      · have a3 := hv 3
        have a4 := hv 4
        have a5 := hv 5
        simp [jcol, ht] at a3 a4 a5
        fin_cases a <;> simpa
      · have a0 := hv 0
        have a1 := hv 1
        have a2 := hv 2
        simp [jcol, ht] at a0 a1 a2
        fin_cases a <;> simpa
    · exact hrs.axis f hfm.1 hfm.2
  obtain ⟨δ, d1, d2⟩ := C107_local_convergence h hr hs hp hl h1 e1 (by norm_num) (w := some fun _ => 1) (fun a => by simp [wVec]) e2 0
    (sol := fun _ => sol) hJ (.inr hinj)
    { low := fun _ => .ninf, high := fun _ => .pinf, revolute := fun _ => true, posTol := 1, rotTol := 1, maxIter := 30,
      lr := 0.2, lineSearch := none, esAny := false, noImp := some .any, patience := 2, enforce := true,
      nRefine := 10, clampToLimits := false } (by simp [IKParams.RatesOk]; norm_num) (by simp [IKParams.clamps])
    (.inr fun j => by simp [Fl.isFinite]) one_pos
  refine ⟨δ, d1, fun pt rt hpt hrt => ?_⟩
  obtain ⟨n, hn⟩ := d2 pt rt hpt hrt
  refine ⟨n, fun m hm x hx => ?_⟩
  exact (hn m hm 1 (fun _ _ _ => .fin x) 0 (fun _ => x) rfl (fun _ => hx)).2.1 (.inr ⟨fun a => rfl, by norm_num, .inl rfl⟩)

end PK
