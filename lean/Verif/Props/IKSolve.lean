import Verif.Props.IKRun

/-! # C51, C52, C53, C59, C72: results of the solver -/

namespace PK
open Matrix Spec Classical

variable {N R d : ℕ}

/-! ## C52, C53 -/

theorem wrapRow_finite {p : IKParams d} (hrev : ∀ j, p.revolute j = true → (p.low j).isFinite = true ∧ (p.high j).isFinite = true)
    {q : QRow d} (h : q.Finite) : (p.wrapRow q).Finite := by
  intro j
  obtain ⟨a, ha⟩ := Fl.isFinite_iff.1 (h j)
  rw [IKParams.wrapRow]
  by_cases hr : p.revolute j = true
  · obtain ⟨hl, hh⟩ := hrev j hr
    obtain ⟨b, hb⟩ := Fl.isFinite_iff.1 hl
    obtain ⟨c, hc⟩ := Fl.isFinite_iff.1 hh
    simp only [hr, if_true, ha, hb, hc]; rfl
  · simp only [hr, ha]; rfl

theorem enforce_finite {p : IKParams d} (hp : p.ProperLimits)
    (hrev : ∀ j, p.revolute j = true → (p.low j).isFinite = true ∧ (p.high j).isFinite = true)
    {ev : Eval N d} (hev : ev.FiniteSteps) {s : Sol N R d} (hs : ∀ i r, QRow.Finite (s.solutions i r)) (i : Fin N) (r : Fin R) :
    QRow.Finite ((p.enforceLimits ev s).solutions i r) := by
  rw [enforce_solutions]
  exact refine_iter_finite hp hev i _ (clampRow_finite hp (wrapRow_finite hrev (hs i r)))

/-- C53, the part that holds: if every revolute joint has two finite limits, all returned joint values are numbers, and
with limit enforcement and at least one finite limit they lie within the limits. The other joints may have any limits.
Missing: revolute joints with an infinite limit, see the next theorem. -/
theorem C53_numeric_partial (p : IKParams d) (hp : p.ProperLimits) (hle : ∀ j, Fl.le (p.low j) (p.high j))
    (hrev : ∀ j, p.revolute j = true → (p.low j).isFinite = true ∧ (p.high j).isFinite = true)
    (ev : Eval N d) (hev : ev.FiniteSteps) (q0 : Fin N → Fin R → QRow d) (hq : ∀ i r, QRow.Finite (q0 i r)) (i : Fin N) (r : Fin R) :
    QRow.Finite ((p.solve ev q0).solutions i r) ∧
    (p.enforce = true → (∃ j, (p.low j).isFinite = true ∨ (p.high j).isFinite = true) →
      ∀ j, Fl.le (p.low j) ((p.solve ev q0).solutions i r j) ∧ Fl.le ((p.solve ev q0).solutions i r j) (p.high j)) := by
  have hcore := solveCore_finite hp hev hq
  unfold IKParams.solve
  dsimp only
  split_ifs with h
  · have hf := enforce_finite hp hrev hev hcore i r
    refine ⟨hf, fun _ _ j => ?_⟩
    rw [enforce_solutions] at hf ⊢
    obtain ⟨q', e, -⟩ := refine_iter_clamped p ev i p.nRefine (p.wrapRow ((p.solveCore ev q0).sol.solutions i r))
    rw [e] at hf ⊢
    exact clampRow_within hle hf j
  · refine ⟨hcore i r, fun h1 h2 => absurd ?_ h⟩
    rw [h1, IKParams.hasFiniteLimits]
    obtain ⟨j, hj | hj⟩ := h2
    · simp [show ∃ j, (p.low j).isFinite = true from ⟨j, hj⟩]
    · simp [show ∃ j, (p.high j).isFinite = true from ⟨j, hj⟩]

/-- C53 fails: with enforcement, at least one finite limit somewhere and a revolute joint lacking a finite limit, the
value of that joint is NaN or infinite in *every* returned solution, whatever the targets, the initial values and the
outcome of the iterations; with both limits infinite (an unlimited joint) it is NaN. -/
theorem C53_fails_unlimited (p : IKParams d) (hp : p.ProperLimits) (he : p.enforce = true)
    (hfin : ∃ k, (p.low k).isFinite = true ∨ (p.high k).isFinite = true) (j : Fin d) (hr : p.revolute j = true)
    (hj : (p.low j).isFinite = false ∨ (p.high j).isFinite = false)
    (ev : Eval N d) (q0 : Fin N → Fin R → QRow d) (i : Fin N) (r : Fin R) :
    ((p.solve ev q0).solutions i r j).isFinite = false ∧
    (p.low j = .ninf → p.high j = .pinf → (p.solve ev q0).solutions i r j = .nan) := by
  have hb : (p.enforce && p.hasFiniteLimits) = true := by
    rw [he, IKParams.hasFiniteLimits]
    obtain ⟨j, hj | hj⟩ := hfin
    · simp [show ∃ j, (p.low j).isFinite = true from ⟨j, hj⟩]
    · simp [show ∃ j, (p.high j).isFinite = true from ⟨j, hj⟩]
  have hsol : (p.solve ev q0).solutions i r =
      (p.refine ev i)^[p.nRefine] (p.clampRow (p.wrapRow ((p.solveCore ev q0).sol.solutions i r))) := by
    unfold IKParams.solve
    dsimp only
    rw [if_pos hb, enforce_solutions]
  rw [hsol]
  generalize (p.solveCore ev q0).sol.solutions i r = q
  -- what a value can be from the wrap on
  let Bad : Fl → Prop := fun x => x = .nan ∨ (x = .ninf ∧ p.low j = .ninf ∧ p.high j ≠ .pinf) ∨
    (x = .pinf ∧ p.high j = .pinf ∧ p.low j ≠ .ninf)
  have hclamp : ∀ x, Bad x → Bad (Fl.clamp x (p.low j) (p.high j)) := by
    rintro x (rfl | ⟨rfl, hl, hh⟩ | ⟨rfl, hh, hl⟩)
    · left; exact Fl.clamp_nan _ _
    · right; left
      refine ⟨?_, hl, hh⟩
      rw [hl]
      rcases (hp j).2 with h | h
      · exact absurd h hh
      · obtain ⟨y, hy⟩ := Fl.isFinite_iff.1 h
        rw [hy]; simp [Fl.clamp]
    · right; right
      refine ⟨?_, hh, hl⟩
      rw [hh]
      rcases (hp j).1 with h | h
      · exact absurd h hl
      · obtain ⟨y, hy⟩ := Fl.isFinite_iff.1 h
        rw [hy]; simp [Fl.clamp]
  have hadd : ∀ x y, Bad x → Bad (Fl.add x y) := by
    rintro x y (rfl | ⟨rfl, hl, hh⟩ | ⟨rfl, hh, hl⟩)
    · left; cases y <;> rfl
    · cases y
      · left; rfl
      · right; left; exact ⟨rfl, hl, hh⟩
      · right; left; exact ⟨rfl, hl, hh⟩
      · left; rfl
    · cases y
      · left; rfl
      · left; rfl
      · right; right; exact ⟨rfl, hh, hl⟩
      · right; right; exact ⟨rfl, hh, hl⟩
  have hwrap : Bad (p.wrapRow q j) := by
    rw [IKParams.wrapRow]
    simp only [hr, if_true]
    rcases (hp j).1 with hl | hl <;> rcases (hp j).2 with hh | hh
    · left; rw [hl, hh]; generalize q j = x; cases x <;> rfl
    · obtain ⟨y, hy⟩ := Fl.isFinite_iff.1 hh
      rw [hl, hy]
      have hb : ∀ x, x = Fl.nan ∨ x = Fl.ninf → Bad x := by
        rintro x (h | h)
        · exact .inl h
        · exact .inr (.inl ⟨h, hl, by rw [hy]; simp⟩)
      apply hb
      generalize q j = x
      cases x <;> simp [Fl.add, Fl.scalePos, Fl.sub, Fl.neg, Fl.round]
    · obtain ⟨y, hy⟩ := Fl.isFinite_iff.1 hl
      rw [hh, hy]
      have hb : ∀ x, x = Fl.nan ∨ x = Fl.pinf → Bad x := by
        rintro x (h | h)
        · exact .inl h
        · exact .inr (.inr ⟨h, hh, by rw [hy]; simp⟩)
      apply hb
      generalize q j = x
      cases x <;> simp [Fl.add, Fl.scalePos, Fl.sub, Fl.neg, Fl.round]
    · rcases hj with h | h
      · rw [hl] at h; cases h
      · rw [hh] at h; cases h
  have hall : ∀ n (q' : QRow d), Bad (q' j) → Bad ((p.refine ev i)^[n] q' j) := by
    intro n
    induction n with
    | zero => exact fun _ h => h
    | succ n ih =>
      intro q' h
      rw [Function.iterate_succ_apply]
      exact ih _ (hclamp _ (hadd _ _ h))
  have := hall p.nRefine (p.clampRow (p.wrapRow q)) (hclamp _ hwrap)
  refine ⟨?_, fun hl hh => ?_⟩
  · rcases this with h | ⟨h, -⟩ | ⟨h, -⟩ <;> (change Fl.isFinite ((p.refine ev i)^[p.nRefine] _ j) = false; rw [h]; rfl)
  · rcases this with h | ⟨-, -, h⟩ | ⟨-, -, h⟩
    · exact h
    · exact absurd hh h
    · exact absurd hl h

/-- one limited prismatic joint, one unlimited revolute joint -/
noncomputable def exMixed : IKParams 2 :=
  ⟨![.fin 0, .ninf], ![.fin 1, .pinf], ![false, true], 1e-3, 1e-2, 10, 0.2, none, true, none, 2, true, 3, false⟩

example (ev : Eval 1 2) : (exMixed.solve ev (fun _ (_ : Fin 1) _ => .fin 0)).solutions 0 0 1 = .nan :=
  (C53_fails_unlimited exMixed
    (fun j => by fin_cases j <;> simp [exMixed, Fl.isFinite]) rfl ⟨0, .inl rfl⟩ 1 rfl (.inl rfl) ev _ 0 0).2 rfl rfl

/-- C53 fails, continued: such a solution is never reported as converged, even if the iterations had converged. -/
theorem C53_fails_unconverged (p : IKParams d) (hp : p.ProperLimits) (he : p.enforce = true)
    (hfin : ∃ k, (p.low k).isFinite = true ∨ (p.high k).isFinite = true) (j : Fin d) (hr : p.revolute j = true)
    (hj : (p.low j).isFinite = false ∨ (p.high j).isFinite = false)
    (ev : Eval N d) (hev : ∀ i (q : QRow d), (∃ j, (q j).isFinite = false) → ∃ a, ((ev i q).2 a).isFinite = false)
    (q0 : Fin N → Fin R → QRow d) (i : Fin N) (r : Fin R) :
    (p.solve ev q0).conv i r = false := by
  have h1 := (C53_fails_unlimited p hp he hfin j hr hj ev q0 i r).1
  have hb : (p.enforce && p.hasFiniteLimits) = true := by
    rw [he, IKParams.hasFiniteLimits]
    obtain ⟨j, hj | hj⟩ := hfin
    · simp [show ∃ j, (p.low j).isFinite = true from ⟨j, hj⟩]
    · simp [show ∃ j, (p.high j).isFinite = true from ⟨j, hj⟩]
  unfold IKParams.solve at h1 ⊢
  dsimp only at h1 ⊢
  rw [if_pos hb] at h1 ⊢
  rw [enforce_solutions] at h1
  obtain ⟨a, ha⟩ := hev i _ ⟨j, h1⟩
  unfold IKParams.enforceLimits
  dsimp only
  rw [(update_fields _ _ _ _ _ _ _).2.2.2.2.2.2.1]
  simp only [Bool.false_or, Bool.and_eq_false_iff, decide_eq_false_iff_not]
  generalize (ev i ((p.refine ev i)^[p.nRefine] (p.clampRow (p.wrapRow ((p.solveCore ev q0).sol.solutions i r))))).2 = e at *
  have hn : ∀ (l : List Fl) (x : Fl) (t : ℝ), x ∈ l → x.isFinite = false → ¬ Fl.lt (Fl.norm l) (.fin t) := by
    intro l x t hx hf
    unfold Fl.norm
    split_ifs with c1 c2
    · simp
    · exact absurd (c2 x hx) (by simp [hf])
    · exact fun h => h
  fin_cases a
  · exact .inl (hn _ (e 0) _ (by simp) ha)
  · exact .inl (hn _ (e 1) _ (by simp) ha)
  · exact .inl (hn _ (e 2) _ (by simp) ha)
  · exact .inr (hn _ (e 3) _ (by simp) ha)
  · exact .inr (hn _ (e 4) _ (by simp) ha)
  · exact .inr (hn _ (e 5) _ (by simp) ha)

/-- C52: with enforcement and finite limits `lo ≤ hi`, every returned joint value, converged or not, is a number within
the limits. -/
theorem C52_within_limits (p : IKParams d) (lo hi : Fin d → ℝ) (hlo : ∀ j, p.low j = .fin (lo j))
    (hhi : ∀ j, p.high j = .fin (hi j)) (hle : ∀ j, lo j ≤ hi j) (he : p.enforce = true)
    (ev : Eval N d) (hev : ev.FiniteSteps) (q0 : Fin N → Fin R → QRow d) (hq : ∀ i r, QRow.Finite (q0 i r))
    (i : Fin N) (r : Fin R) :
    ∃ x : Fin d → ℝ, (p.solve ev q0).solutions i r = (fun j => .fin (x j)) ∧ ∀ j, lo j ≤ x j ∧ x j ≤ hi j := by
  obtain ⟨h1, h2⟩ := C53_numeric_partial p (fun j => by simp [hlo, hhi, Fl.isFinite])
    (fun j => by rw [hlo, hhi]; exact hle j) (fun j _ => by simp [hlo, hhi, Fl.isFinite]) ev hev q0 hq i r
  obtain ⟨x, hx⟩ := h1.exists
  refine ⟨x, hx, fun j => ?_⟩
  have := h2 he ⟨j, .inl (by rw [hlo]; rfl)⟩ j
  rw [hx, hlo, hhi] at this
  exact this

/-- far outside the limits `[-1, 2]`, with a large step at every row -/
example : ∃ x : Fin 1 → ℝ, ((⟨fun _ => .fin (-1), fun _ => .fin 2, fun _ => false, 1e-3, 1e-2, 10, 0.2, none, true, none, 2,
      true, 3, false⟩ : IKParams 1).solve (fun (_ : Fin 2) _ => (fun _ => .fin 100, fun _ => .fin 1))
      (fun _ (_ : Fin 1) _ => .fin 50)).solutions 1 0 = (fun j => .fin (x j)) ∧ ∀ j, -1 ≤ x j ∧ x j ≤ 2 :=
  C52_within_limits _ (fun _ => -1) (fun _ => 2) (fun _ => rfl) (fun _ => rfl) (fun _ => by norm_num) rfl _
    (fun _ _ _ _ => rfl) _ (fun _ _ _ => rfl) 1 0

/-! ## C51, C72 -/

/-- The evaluation reports the pose error of `jacobian_tensor`'s pose, whatever step it proposes (this holds for both
step kernels and every weighting); a non-finite joint value gives a non-finite error entry. -/
structure ReportsError (s : SerialChain) (targets : Fin N → M4) (ev : Eval N d) : Prop where
  finite : ∀ i (q : Fin d → ℝ), ∃ J m, s.jacobianTensor (B := 1) (List.ofFn fun j _ => q j) = .ok (J, m) ∧
    (ev i (fun j => .fin (q j))).2 = fun a =>
      .fin (deltaPose (m 0) (posPart (targets i)) (matrixToQuaternion (rotPart (targets i))) a)
  propagates : ∀ i (q : QRow d), (∃ j, (q j).isFinite = false) → ∃ a, ((ev i q).2 a).isFinite = false

theorem Realises.reportsError {s : SerialChain} {targets : Fin N → M4} {reg lm : ℝ} {w : Option (Fin 6 → ℝ)}
    {ev : Eval N d} (h : Realises s targets reg lm w ev) : ReportsError s targets ev := by
  refine ⟨fun i q => ?_, h.propagates⟩
  obtain ⟨J, m, h1, -, e⟩ := h.finite i q
  refine ⟨J, m, h1, ?_⟩
  rw [e]
  rfl

/-- norms of the position and rotation parts of the error at a row -/
noncomputable def posErr (ev : Eval N d) (i : Fin N) (q : QRow d) : Fl := Fl.norm [(ev i q).2 0, (ev i q).2 1, (ev i q).2 2]
noncomputable def rotErr (ev : Eval N d) (i : Fin N) (q : QRow d) : Fl := Fl.norm [(ev i q).2 3, (ev i q).2 4, (ev i q).2 5]

/-- recorded errors belong to the recorded solution -/
structure Paired (pt rt : ℝ) (ev : Eval N d) (s : Sol N R d) (i : Fin N) (r : Fin R) : Prop where
  pos : s.errPos i r = posErr ev i (s.solutions i r)
  rot : s.errRot i r = rotErr ev i (s.solutions i r)

theorem paired_update {pt rt : ℝ} {ev : Eval N d} {s : Sol N R d} {q : Fin N → Fin R → QRow d} {u : Bool} {i : Fin N} {r : Fin R}
    (h : s.conv i r = true → Paired pt rt ev s i r) :
    Paired pt rt ev (s.update pt rt q (fun i r => (ev i (q i r)).2) u) i r := by
  obtain ⟨-, h1, h2, h3, -⟩ := update_fields pt rt s q (fun i r => (ev i (q i r)).2) u none
  by_cases hc : s.conv i r = true
  · obtain ⟨a, b⟩ := h hc
    constructor
    · rw [h1, h2]; simpa [hc] using a
    · rw [h1, h3]; simpa [hc] using b
  · constructor
    · rw [h1, h2]; simp [hc, posErr]
    · rw [h1, h3]; simp [hc, rotErr]

theorem paired_body {p : IKParams d} {ev : Eval N d} {st : IKState N R d} {i : Fin N} {r : Fin R}
    (h : st.sol.conv i r = true → Paired p.posTol p.rotTol ev st.sol i r) :
    Paired p.posTol p.rotTol ev (p.body ev st).sol i r := by
  have := paired_update (q := st.q) (u := p.esAny) (s := { st.sol with iterations := st.sol.iterations + 1 })
    (pt := p.posTol) (rt := p.rotTol) (ev := ev) (i := i) (r := r) (fun hc => ⟨(h hc).pos, (h hc).rot⟩)
  rcases body_sol p ev st with e | ⟨m, e⟩ <;> rw [e]
  · exact this
  · exact ⟨this.pos, this.rot⟩

theorem paired_iterate {p : IKParams d} {ev : Eval N d} {i : Fin N} {r : Fin R} (k : ℕ) {st : IKState N R d}
    (h : st.sol.conv i r = true → Paired p.posTol p.rotTol ev st.sol i r) :
    ((p.body ev)^[k] st).sol.conv i r = true → Paired p.posTol p.rotTol ev ((p.body ev)^[k] st).sol i r := by
  induction k generalizing st with
  | zero => exact h
  | succ k ih => rw [Function.iterate_succ_apply]; exact ih (fun _ => paired_body h)

theorem paired_solveCore (p : IKParams d) (ev : Eval N d) (q0 : Fin N → Fin R → QRow d) (i : Fin N) (r : Fin R) :
    Paired p.posTol p.rotTol ev (p.solveCore ev q0).sol i r := by
  obtain ⟨k, -, hk, -⟩ := loop_spec p ev p.maxIter ⟨q0, Sol.init N R d, none⟩
  unfold IKParams.solveCore
  dsimp only
  rw [hk]
  exact paired_update (paired_iterate k (fun h => by simp [Sol.init] at h))

theorem paired_solve (p : IKParams d) (ev : Eval N d) (q0 : Fin N → Fin R → QRow d) (i : Fin N) (r : Fin R) :
    Paired p.posTol p.rotTol ev (p.solve ev q0) i r := by
  unfold IKParams.solve
  dsimp only
  split_ifs
  · unfold IKParams.enforceLimits
    exact paired_update (fun h => by simp at h)
  · exact paired_solveCore p ev q0 i r

theorem flagsOk_body {p : IKParams d} {ev : Eval N d} {st : IKState N R d} (h : FlagsOk p.posTol p.rotTol st.sol) :
    FlagsOk p.posTol p.rotTol (p.body ev st).sol := by
  have h' : FlagsOk p.posTol p.rotTol { st.sol with iterations := st.sol.iterations + 1 } := ⟨h.1, h.2, h.3⟩
  have := flagsOk_run p.posTol p.rotTol h' (.update st.q (fun i r => (ev i (st.q i r)).2) p.esAny none)
  rcases body_sol p ev st with e | ⟨m, e⟩ <;> rw [e]
  · exact this
  · exact flagsOk_run p.posTol p.rotTol this (.keep m)

theorem flagsOk_iterate {p : IKParams d} {ev : Eval N d} (k : ℕ) {st : IKState N R d} (h : FlagsOk p.posTol p.rotTol st.sol) :
    FlagsOk p.posTol p.rotTol ((p.body ev)^[k] st).sol := by
  induction k generalizing st with
  | zero => exact h
  | succ k ih => rw [Function.iterate_succ_apply]; exact ih (flagsOk_body h)

theorem flagsOk_solveCore (p : IKParams d) (ev : Eval N d) (q0 : Fin N → Fin R → QRow d) :
    FlagsOk p.posTol p.rotTol (p.solveCore ev q0).sol := by
  obtain ⟨k, -, hk, -⟩ := loop_spec p ev p.maxIter ⟨q0, Sol.init N R d, none⟩
  unfold IKParams.solveCore
  dsimp only
  rw [hk]
  exact flagsOk_run _ _ (flagsOk_iterate k (flagsOk_init _ _)) (.update _ _ _ none)

theorem flagsOk_solve (p : IKParams d) (ev : Eval N d) (q0 : Fin N → Fin R → QRow d) :
    FlagsOk p.posTol p.rotTol (p.solve ev q0) := by
  unfold IKParams.solve
  dsimp only
  split_ifs
  · exact flagsOk_run _ _ (flagsOk_run _ _ (flagsOk_solveCore p ev q0) .reset) (.update _ _ _ none)
  · exact flagsOk_solveCore p ev q0

theorem norm_fin3 (a b c : ℝ) : Fl.norm [.fin a, .fin b, .fin c] = .fin (vlen ![a, b, c]) := by
  simp [Fl.norm, Fl.isFinite, vlen, add_assoc, sq]

theorem norm_lt_finite {l : List Fl} {t : ℝ} (h : Fl.lt (Fl.norm l) (.fin t)) : ∀ x ∈ l, x.isFinite = true := by
  unfold Fl.norm at h
  split_ifs at h with c1 c2
  · simp at h
  · exact c2
  · exact absurd h (fun h => h)

/-- C72: for every retry, converged or not, with numeric joint values, `err_pos` is the distance of the end effector from
the target and `err_rot` the angle to it (exact from 1e-6 rad on, up to a relative 1e-13 below), both computed at the
returned solution. -/
theorem C72_errors_of_solution (root rf fe : Frame) (rootName : Name) (path : List Frame) (h : WF root) (hr : RigidTree root)
    (hs : StartsAt root rf rootName) (hp : IsPath rf path) (hl : path.getLast? = some fe)
    (hd : d = (pathJoints path).length) (targets : Fin N → M4) (ht : ∀ i, IsRigid (targets i))
    (s : SerialChain) (hse : SerialChain.init root fe.name rootName = .ok s) (ev : Eval N d) (hev : ReportsError s targets ev)
    (p : IKParams d) (q0 : Fin N → Fin R → QRow d) (i : Fin N) (r : Fin R) (x : Fin d → ℝ)
    (hx : (p.solve ev q0).solutions i r = fun j => .fin (x j)) :
    ∃ T ea, s.fkEnd (.tensor 1 (List.ofFn fun j _ => x j)) = .ok ⟨1, T⟩ ∧
      (p.solve ev q0).errPos i r = .fin (vlen (posPart (targets i) - posPart (T 0))) ∧
      (p.solve ev q0).errRot i r = .fin ea ∧
      let θ := rotAngle (rotPart (targets i) * (rotPart (T 0))ᵀ)
      θ ≤ ea ∧ ea ≤ θ * (1 + 1e-13) ∧ (1e-6 ≤ θ → ea = θ) := by
  obtain ⟨rest, rfl⟩ := isPath_head hp
  have hws := serialRoot_wf (h.sub hs.1) hp
  have hrs := serialRoot_rigid (hr.sub hs.1) hp
  obtain rfl := Except.ok.inj (hse.symm.trans (serialInit_ok h hs hp hl rfl))
  obtain ⟨J, m, h1, h2⟩ := hev.finite i x
  have hlen : (List.ofFn fun j (_ : Fin 1) => x j).length = (pathJoints (rf :: rest)).length := by rw [List.length_ofFn, hd]
  have h3 := jacobianTensor_ok hws (List.ofFn fun j (_ : Fin 1) => x j) hlen
  have hm := congrArg Prod.snd (Except.ok.inj (h1.symm.trans h3))
  simp only at hm
  have hrig : IsRigid (m 0) := by
    obtain ⟨fl, -, hfn, hfm⟩ := exists_last rf rest
    obtain ⟨pp, hpp, hpl⟩ := exists_path hfm
    rw [hm, ← hfn, hws.pose_path _ hpp hpl]
    exact pathT_rigid hrs _ (isPath_mem hpp)
  obtain ⟨a1, -, a2, a3, a4, -⟩ := C58_delta_pose (m 0) (targets i) hrig (ht i)
  obtain ⟨b1, b2⟩ := paired_solve p ev q0 i r
  refine ⟨m, vlen (tail3 (deltaPose (m 0) (posPart (targets i)) (matrixToQuaternion (rotPart (targets i))))), ?_, ?_, ?_, a2, a3, a4⟩
  · rw [serial_fkEnd hws _ hlen, hm]
  · rw [b1, hx, posErr, h2, norm_fin3]
    congr 2
    funext k
    have := a1 k
    fin_cases k <;> simpa [head3] using this
  · rw [b2, hx, rotErr, h2, norm_fin3]
    congr 2

/-- C51: a retry reported as converged has numeric joint values, and forward kinematics of them is within the position
tolerance of the target in distance and within the rotation tolerance in angle. For every well-formed rigid chain, rigid
targets, initial values, iteration budget, learning rate, line search, stopping rules, limit enforcement and step. -/
theorem C51_converged_reaches_target (root rf fe : Frame) (rootName : Name) (path : List Frame) (h : WF root) (hr : RigidTree root)
    (hs : StartsAt root rf rootName) (hp : IsPath rf path) (hl : path.getLast? = some fe)
    (hd : d = (pathJoints path).length) (targets : Fin N → M4) (ht : ∀ i, IsRigid (targets i))
    (s : SerialChain) (hse : SerialChain.init root fe.name rootName = .ok s) (ev : Eval N d) (hev : ReportsError s targets ev)
    (p : IKParams d) (q0 : Fin N → Fin R → QRow d) (i : Fin N) (r : Fin R) (hc : (p.solve ev q0).conv i r = true) :
    ∃ (x : Fin d → ℝ) (T : Fin 1 → M4), (p.solve ev q0).solutions i r = (fun j => .fin (x j)) ∧
      s.fkEnd (.tensor 1 (List.ofFn fun j _ => x j)) = .ok ⟨1, T⟩ ∧
      vlen (posPart (targets i) - posPart (T 0)) < p.posTol ∧
      rotAngle (rotPart (targets i) * (rotPart (T 0))ᵀ) < p.rotTol := by
  obtain ⟨f1, f2⟩ := (flagsOk_solve p ev q0).conv_err i r hc
  obtain ⟨b1, b2⟩ := paired_solve p ev q0 i r
  have hfin : QRow.Finite ((p.solve ev q0).solutions i r) := by
    by_contra hn
    unfold QRow.Finite at hn
    push Not at hn
    obtain ⟨j, hj⟩ := hn
    obtain ⟨a, ha⟩ := hev.propagates i _ ⟨j, by simpa using hj⟩
    rw [b1] at f1
    rw [b2] at f2
    have g1 := norm_lt_finite f1
    have g2 := norm_lt_finite f2
    simp only [List.mem_cons, List.not_mem_nil, or_false, forall_eq_or_imp, forall_eq] at g1 g2
    obtain ⟨c0, c1, c2⟩ := g1
    obtain ⟨c3, c4, c5⟩ := g2
    fin_cases a <;> simp_all
  obtain ⟨x, hx⟩ := hfin.exists
  obtain ⟨T, ea, e1, e2, e3, e4, -⟩ := C72_errors_of_solution root rf fe rootName path h hr hs hp hl hd targets ht s hse ev hev
    p q0 i r x hx
  rw [e2] at f1
  rw [e3] at f2
  exact ⟨x, T, hx, e1, f1, lt_of_le_of_lt e4 f2⟩

/-! ### the hypotheses are met -/

/-- the code's evaluation exists for every well-formed chain and targets -/
theorem realises_exists (root rf fe : Frame) (rootName : Name) (path : List Frame) (h : WF root)
    (hs : StartsAt root rf rootName) (hp : IsPath rf path) (hl : path.getLast? = some fe)
    (hd : d = (pathJoints path).length) (targets : Fin N → M4) (reg lm : ℝ) (w : Option (Fin 6 → ℝ)) :
    ∃ (s : SerialChain) (ev : Eval N d), SerialChain.init root fe.name rootName = .ok s ∧ Realises s targets reg lm w ev := by
  obtain ⟨rest, rfl⟩ := isPath_head hp
  have hws := serialRoot_wf (h.sub hs.1) hp
  have hlen : ∀ x : Fin d → ℝ, (List.ofFn fun j (_ : Fin 1) => x j).length = (pathJoints (rf :: rest)).length := by
    intro x; rw [List.length_ofFn, hd]
  have hj : ∀ x : Fin d → ℝ, ∃ J m, (serialOf rf rest).jacobianTensor (B := 1) (List.ofFn fun j _ => x j) = .ok (J, m) ∧
      J.length = d := fun x =>
    ⟨_, _, jacobianTensor_ok hws _ (hlen x), by rw [jacCols, List.length_map, dofFrames_length, hd]⟩
  choose J m h1 h2 using hj
  let val : QRow d → Fin d → ℝ := fun q j => match q j with | .fin y => y | _ => 0
  let k : Fin N → (Fin d → ℝ) → (Fin d → ℝ) × (Fin 6 → ℝ) := fun i x =>
    ikStepKernel (m x 0) (posPart (targets i)) (matrixToQuaternion (rotPart (targets i)))
      (Matrix.of fun k (j : Fin d) => ((J x).getD j fun _ _ => 0) 0 k) reg lm w
  refine ⟨serialOf rf rest, fun i q => if ∃ j, (q j).isFinite = false then (fun _ => .nan, fun _ => .nan) else
    (fun j => .fin ((k i (val q)).1 j), fun a => .fin ((k i (val q)).2 a)), serialInit_ok h hs hp hl rfl, ?_, ?_⟩
  · intro i q
    refine ⟨J q, m q, h1 q, h2 q, ?_⟩
    have : ¬ ∃ j, ((fun j => Fl.fin (q j)) j).isFinite = false := by simp [Fl.isFinite]
    simp only [if_neg this]
    rfl
  · intro i q hq
    exact ⟨0, by simp only [if_pos hq]; rfl⟩

/-- each row of a batch is treated as if alone by `jacobian_tensor` -/
theorem jacobianTensor_rowwise (root rf fe : Frame) (rootName : Name) (path : List Frame) (h : WF root)
    (hs : StartsAt root rf rootName) (hp : IsPath rf path) (hl : path.getLast? = some fe) {B : ℕ}
    (th : List (Fin B → ℝ)) (hth : th.length = (pathJoints path).length) (b : Fin B) :
    ∃ s J T J' T', SerialChain.init root fe.name rootName = .ok s ∧ s.jacobianTensor th = .ok (J, T) ∧
      s.jacobianTensor (B := 1) (th.map fun c _ => c b) = .ok (J', T') ∧
      J'.map (fun c => c 0) = J.map (fun c => c b) ∧ T' 0 = T b := by
  obtain ⟨rest, rfl⟩ := isPath_head hp
  have hws := serialRoot_wf (h.sub hs.1) hp
  refine ⟨serialOf rf rest, _, _, _, _, serialInit_ok h hs hp hl rfl, jacobianTensor_ok hws th hth,
    jacobianTensor_ok hws _ (by rw [List.length_map, hth]), ?_, ?_⟩
  all_goals
    have key : ∀ f ∈ preorder (serialRoot rf rest),
        poseAt (serialRoot rf rest) (th.map fun c (_ : Fin 1) => c b) (posOf (serialRoot rf rest) f.name) 0 =
        poseAt (serialRoot rf rest) th (posOf (serialRoot rf rest) f.name) b := by
      intro f hf
      obtain ⟨pp, hpp, hpl⟩ := exists_path hf
      rw [hws.pose_path _ hpp hpl, hws.pose_path _ hpp hpl]
      congr 1
      funext j
      simp only [colVal, List.getD, List.getElem?_map]
      cases th[column (serialRoot rf rest) j]? <;> rfl
    obtain ⟨fl, -, hfn, hfm⟩ := exists_last rf rest
    have hlast := key fl hfm
    rw [hfn] at hlast
  · rw [jacCols, jacCols, List.map_map, List.map_map]
    apply List.map_congr_left
    intro f hf
    simp only [Function.comp_apply]
    rw [key f (dofFrames_mem hf).1, hlast]
  · exact hlast

/-- C51 for the default solver, whose evaluation exists: the hypotheses can be met for every chain -/
example (root rf fe : Frame) (rootName : Name) (path : List Frame) (h : WF root) (hr : RigidTree root)
    (hs : StartsAt root rf rootName) (hp : IsPath rf path) (hl : path.getLast? = some fe)
    (target : M4) (ht : IsRigid target) (p : IKParams (pathJoints path).length)
    (q0 : Fin 1 → Fin 3 → QRow (pathJoints path).length) :
    ∃ (s : SerialChain) (ev : Eval 1 (pathJoints path).length), SerialChain.init root fe.name rootName = .ok s ∧
      Realises s (fun _ => target) 1e-9 0 none ev ∧ ∀ r, (p.solve ev q0).conv 0 r = true →
        ∃ (x : Fin (pathJoints path).length → ℝ) (T : Fin 1 → M4), s.fkEnd (.tensor 1 (List.ofFn fun j _ => x j)) = .ok ⟨1, T⟩ ∧
          vlen (posPart target - posPart (T 0)) < p.posTol := by
  obtain ⟨s, ev, h1, h2⟩ := realises_exists root rf fe rootName path h hs hp hl rfl (N := 1) (fun _ => target) 1e-9 0 none
  refine ⟨s, ev, h1, h2, fun r hc => ?_⟩
  obtain ⟨x, T, -, e, e', -⟩ := C51_converged_reaches_target root rf fe rootName path h hr hs hp hl rfl (fun _ => target)
    (fun _ => ht) s h1 ev h2.reportsError p q0 0 r hc
  exact ⟨x, T, e, e'⟩

/-! ## C59 -/

/-- problem `i` of a batch -/
def Sol.only (i : Fin N) (s : Sol N R d) : Sol 1 R d where
  iterations := s.iterations
  solutions := fun _ => s.solutions i
  remaining := fun _ => s.remaining i
  errPos := fun _ => s.errPos i
  errRot := fun _ => s.errRot i
  convPos := fun _ => s.convPos i
  convRot := fun _ => s.convRot i
  conv := fun _ => s.conv i
  convPosAny := fun _ => s.convPosAny i
  convRotAny := fun _ => s.convRotAny i
  convAny := fun _ => s.convAny i

/-- problem `i` of a loop state -/
def IKState.only (i : Fin N) (st : IKState N R d) : IKState 1 R d where
  q := fun _ => st.q i
  sol := st.sol.only i
  progress := st.progress.map fun pr => (fun _ => pr.1 i, fun _ => pr.2 i)

theorem update_only (pt rt : ℝ) (s : Sol N R d) (q : Fin N → Fin R → QRow d) (err : Fin N → Fin R → Fin 6 → Fl) (u : Bool)
    (i : Fin N) : (s.update pt rt q err u).only i = (s.only i).update pt rt (fun _ => q i) (fun _ => err i) u := by
  unfold Sol.update
  cases u <;> rfl

theorem keep_only (m : NoImp) (could : Fin N → Fin R → Bool) (i : Fin N) :
    (fun _ : Fin 1 => m.keep could i) = m.keep (fun _ : Fin 1 => could i) := by
  cases m <;> rfl

theorem body_only (p : IKParams d) (hls : p.lineSearch = none) (ev : Eval N d) (st : IKState N R d) (i : Fin N) :
    (p.body ev st).only i = p.body (fun _ => ev i) (st.only i) := by
  have hsol := update_only p.posTol p.rotTol { st.sol with iterations := st.sol.iterations + 1 } st.q
    (fun i r => (ev i (st.q i r)).2) p.esAny i
  have hrates : ∀ {M : ℕ} (ev : Eval M d) (q : Fin M → Fin R → QRow d) out rem, p.rates ev q out rem = fun _ _ => p.lr := by
    intro M ev q out rem
    unfold IKParams.rates; rw [hls]
  have hwatch : ∀ (s : Sol N R d) (e : Fin N → Fin R → Fl),
      ((p.watch st.progress e s).2.only i = (p.watch (st.only i).progress (fun _ => e i) (s.only i)).2) ∧
      ((p.watch st.progress e s).1.map fun pr => (fun _ : Fin 1 => pr.1 i, fun _ : Fin 1 => pr.2 i)) =
        (p.watch (st.only i).progress (fun _ => e i) (s.only i)).1 := by
    intro s e
    unfold IKParams.watch
    cases p.noImp with
    | none => exact ⟨rfl, rfl⟩
    | some m =>
      simp only [IKState.only]
      cases st.progress with
      | none => exact ⟨rfl, rfl⟩
      | some pr =>
        simp only [progressStep, Option.map_some]
        refine ⟨?_, trivial⟩
        simp only [Sol.keep, Sol.only]
        congr 1
        funext j
        congr 1
        exact congrFun (keep_only m _ i) j
  obtain ⟨w1, w2⟩ := hwatch ({ st.sol with iterations := st.sol.iterations + 1 }.update p.posTol p.rotTol st.q
    (fun i r => (ev i (st.q i r)).2) p.esAny) (fun i r => errNorm (ev i (st.q i r)).2)
  rw [hsol] at w1 w2
  unfold IKParams.body
  simp only [hrates]
  unfold IKState.only
  simp only
  refine congr (congr (congrArg IKState.mk ?_) ?_) ?_
  · split_ifs <;> rfl
  · exact w1
  · exact w2

theorem iterate_only (p : IKParams d) (hls : p.lineSearch = none) (ev : Eval N d) (i : Fin N) (k : ℕ) (st : IKState N R d) :
    ((p.body ev)^[k] st).only i = (p.body (fun _ : Fin 1 => ev i))^[k] (st.only i) := by
  induction k generalizing st with
  | zero => rfl
  | succ k ih => rw [Function.iterate_succ_apply, ih, body_only p hls, Function.iterate_succ_apply]

theorem conv_kept_body (p : IKParams d) (ev : Eval N d) (st : IKState N R d) (i : Fin N) (r : Fin R)
    (hc : st.sol.conv i r = true) :
    (p.body ev st).sol.conv i r = true ∧ (p.body ev st).sol.solutions i r = st.sol.solutions i r := by
  have := (run_sticky p.posTol p.rotTol { st.sol with iterations := st.sol.iterations + 1 }
    (.update st.q (fun i r => (ev i (st.q i r)).2) p.esAny none) (by simp) i r).1 hc
  rcases body_sol p ev st with e | ⟨m, e⟩ <;> rw [e] <;> exact ⟨this.1, this.2.1⟩

theorem conv_kept_iterate (p : IKParams d) (ev : Eval N d) (k : ℕ) (st : IKState N R d) (i : Fin N) (r : Fin R)
    (hc : st.sol.conv i r = true) :
    ((p.body ev)^[k] st).sol.conv i r = true ∧ ((p.body ev)^[k] st).sol.solutions i r = st.sol.solutions i r := by
  induction k generalizing st with
  | zero => exact ⟨hc, rfl⟩
  | succ k ih =>
    rw [Function.iterate_succ_apply]
    obtain ⟨a, b⟩ := conv_kept_body p ev st i r hc
    obtain ⟨c, e⟩ := ih _ a
    exact ⟨c, e.trans b⟩

/-- C59: without line search and before limit enforcement, a retry that converges when problem `i` is solved alone
converges with the same solution when it is solved in a batch. -/
theorem C59_batch_keeps_solutions (p : IKParams d) (hls : p.lineSearch = none) (ev : Eval N d) (q0 : Fin N → Fin R → QRow d)
    (i : Fin N) (r : Fin R) :
    let alone := (p.solveCore (fun _ : Fin 1 => ev i) (fun _ => q0 i)).sol
    let batch := (p.solveCore ev q0).sol
    alone.conv 0 r = true → batch.conv i r = true ∧ batch.solutions i r = alone.solutions 0 r := by
  intro alone batch hc
  obtain ⟨ka, a1, a2, a3, a4⟩ := loop_spec p (fun _ : Fin 1 => ev i) p.maxIter ⟨fun _ => q0 i, Sol.init 1 R d, none⟩
  obtain ⟨kb, b1, b2, b3, b4⟩ := loop_spec p ev p.maxIter ⟨q0, Sol.init N R d, none⟩
  set st0 : IKState N R d := ⟨q0, Sol.init N R d, none⟩ with hst0
  have hst : (⟨fun _ => q0 i, Sol.init 1 R d, none⟩ : IKState 1 R d) = st0.only i := rfl
  rw [hst] at a2 a3 a4
  have hle : ka ≤ kb := by
    by_contra hlt
    push Not at hlt
    obtain ⟨j, hj⟩ := a4 kb hlt
    rw [← iterate_only p hls] at hj
    have := b3 (by omega) i
    rw [b2] at this
    change ((p.body ev)^[kb] st0).sol.remaining i = true at hj
    rw [this] at hj; cases hj
  have halone : alone = (((p.body ev)^[ka] st0).sol.update p.posTol p.rotTol ((p.body ev)^[ka] st0).q
      (fun i r => (ev i (((p.body ev)^[ka] st0).q i r)).2) p.esAny).only i := by
    rw [update_only]
    change (p.solveCore (fun _ : Fin 1 => ev i) (fun _ => q0 i)).sol = _
    unfold IKParams.solveCore
    dsimp only
    rw [hst, a2, ← iterate_only p hls]
    rfl
  have hbatch : batch = ((p.body ev)^[kb] st0).sol.update p.posTol p.rotTol ((p.body ev)^[kb] st0).q
      (fun i r => (ev i (((p.body ev)^[kb] st0).q i r)).2) p.esAny := by
    change (p.solveCore ev q0).sol = _
    unfold IKParams.solveCore
    dsimp only
    rw [← hst0, b2]
  set sa := (p.body ev)^[ka] st0 with hsa
  rw [halone] at hc ⊢
  rcases Nat.eq_or_lt_of_le hle with rfl | hlt
  · rw [hbatch]; exact ⟨hc, rfl⟩
  · obtain ⟨n, rfl⟩ := Nat.exists_eq_add_of_lt hlt
    have e : (p.body ev)^[ka + n + 1] st0 = (p.body ev)^[n] (p.body ev sa) := by
      rw [show ka + n + 1 = n + (1 + ka) by omega, Function.iterate_add_apply, Function.iterate_add_apply]
      rfl
    have h1 : (p.body ev sa).sol.conv i r = true ∧ (p.body ev sa).sol.solutions i r =
        (sa.sol.update p.posTol p.rotTol sa.q (fun i r => (ev i (sa.q i r)).2) p.esAny).solutions i r := by
      have hu : ({ sa.sol with iterations := sa.sol.iterations + 1 }.update p.posTol p.rotTol sa.q
          (fun i r => (ev i (sa.q i r)).2) p.esAny).conv = (sa.sol.update p.posTol p.rotTol sa.q
          (fun i r => (ev i (sa.q i r)).2) p.esAny).conv := by
        unfold Sol.update; cases p.esAny <;> rfl
      have hv : ({ sa.sol with iterations := sa.sol.iterations + 1 }.update p.posTol p.rotTol sa.q
          (fun i r => (ev i (sa.q i r)).2) p.esAny).solutions = (sa.sol.update p.posTol p.rotTol sa.q
          (fun i r => (ev i (sa.q i r)).2) p.esAny).solutions := by
        unfold Sol.update; cases p.esAny <;> rfl
      rcases body_sol p ev sa with e | ⟨m, e⟩ <;> rw [e]
      · rw [hu, hv]; exact ⟨hc, rfl⟩
      · exact ⟨by change Sol.conv _ i r = true; exact (congrFun (congrFun hu i) r).trans hc, congrFun (congrFun hv i) r⟩
    obtain ⟨g1, g2⟩ := conv_kept_iterate p ev n _ i r h1.1
    rw [← e] at g1 g2
    have := (run_sticky p.posTol p.rotTol ((p.body ev)^[ka + n + 1] st0).sol (.update ((p.body ev)^[ka + n + 1] st0).q
      (fun i r => (ev i (((p.body ev)^[ka + n + 1] st0).q i r)).2) p.esAny none) (by simp) i r).1 g1
    rw [hbatch]
    exact ⟨this.1, this.2.1.trans (g2.trans h1.2)⟩

/-- problem 1 of 2 is solved exactly after one step from 0 to 1, problem 0 never -/
noncomputable def exEval : Eval 2 1 := fun i q =>
  (fun _ => .fin 1, fun _ => if i = 1 ∧ q 0 = .fin 1 then .fin 0 else .fin 1)

noncomputable def exP : IKParams 1 :=
  ⟨fun _ => .ninf, fun _ => .pinf, fun _ => true, 1e-3, 1e-2, 1, 1, none, true, none, 2, true, 3, false⟩

example : (exP.solveCore (fun _ : Fin 1 => exEval 1) (fun _ (_ : Fin 1) _ => .fin 0)).sol.conv 0 0 = true := by
  simp only [IKParams.solveCore, exP, IKParams.loop]
  rw [if_pos ⟨0, rfl⟩]
  simp [IKParams.body, IKParams.watch, IKParams.rates, IKParams.clamps, Sol.update, Sol.keep, Sol.init, exEval, stepRow, Fl.add,
    Fl.mulReal, Fl.norm, Fl.isFinite]
  right; norm_num

end PK
