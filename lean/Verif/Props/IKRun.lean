import Verif.Props.IKSol
import Verif.Props.IKPose
import Verif.Props.IKStep
import Verif.Props.Serial

/-! # C51, C52, C53, C59, C61: runs of the solver -/

namespace PK
open Matrix Spec Classical

variable {N R d : ℕ}

/-! ## finite rows -/

/-- all entries are numbers -/
def QRow.Finite (q : QRow d) : Prop := ∀ j, (q j).isFinite = true

theorem Fl.isFinite_iff {x : Fl} : x.isFinite = true ↔ ∃ y, x = .fin y := by
  cases x <;> simp [Fl.isFinite]

theorem QRow.Finite.exists {q : QRow d} (h : q.Finite) : ∃ x : Fin d → ℝ, q = fun j => .fin (x j) := by
  choose x hx using fun j => Fl.isFinite_iff.1 (h j)
  exact ⟨x, funext hx⟩

theorem QRow.finite_fin (x : Fin d → ℝ) : QRow.Finite (fun j => .fin (x j)) := fun _ => rfl

/-- the evaluation gives a numeric step at numeric joint values -/
def Eval.FiniteSteps (ev : Eval N d) : Prop := ∀ i (q : QRow d), q.Finite → QRow.Finite (ev i q).1

theorem Realises.finiteSteps {s : SerialChain} {targets : Fin N → M4} {reg lm : ℝ} {w : Option (Fin 6 → ℝ)}
    {ev : Eval N d} (h : Realises s targets reg lm w ev) : ev.FiniteSteps := by
  intro i q hq
  obtain ⟨x, rfl⟩ := hq.exists
  obtain ⟨J, m, -, -, e⟩ := h.finite i x
  rw [e]; exact QRow.finite_fin _

theorem stepRow_finite {lr : ℝ} {q dq : QRow d} (h : q.Finite) (h' : dq.Finite) : (stepRow lr q dq).Finite := by
  intro j
  obtain ⟨a, ha⟩ := Fl.isFinite_iff.1 (h j)
  obtain ⟨b, hb⟩ := Fl.isFinite_iff.1 (h' j)
  rw [stepRow, ha, hb]; rfl

/-- Limits as every chain has them: a lower limit is a number or `-inf`, an upper one a number or `inf`. -/
def IKParams.ProperLimits (p : IKParams d) : Prop :=
  ∀ j, (p.low j = .ninf ∨ (p.low j).isFinite = true) ∧ (p.high j = .pinf ∨ (p.high j).isFinite = true)

theorem clampRow_finite {p : IKParams d} (hp : p.ProperLimits) {q : QRow d} (h : q.Finite) : (p.clampRow q).Finite := by
  intro j
  obtain ⟨a, ha⟩ := Fl.isFinite_iff.1 (h j)
  obtain ⟨hl, hh⟩ := hp j
  rw [IKParams.clampRow, Fl.clamp, ha]
  rcases hl with hl | hl
  · rw [hl]
    rcases hh with hh | hh
    · rw [hh]; simp [Fl.isFinite]
    · obtain ⟨b, hb⟩ := Fl.isFinite_iff.1 hh
      rw [hb]; simp [Fl.isFinite]
  · obtain ⟨c, hc⟩ := Fl.isFinite_iff.1 hl
    rw [hc]
    rcases hh with hh | hh
    · rw [hh]; simp [Fl.isFinite]
    · obtain ⟨b, hb⟩ := Fl.isFinite_iff.1 hh
      rw [hb]; simp [Fl.isFinite]

theorem body_q (p : IKParams d) (ev : Eval N d) (st : IKState N R d) (i : Fin N) (r : Fin R) :
    ∃ lr, (p.body ev st).q i r = if p.clamps then p.clampRow (stepRow lr (st.q i r) (ev i (st.q i r)).1)
      else stepRow lr (st.q i r) (ev i (st.q i r)).1 := by
  by_cases hc : p.clamps = true
  · simp only [IKParams.body, hc, if_true]; exact ⟨_, rfl⟩
  · simp only [IKParams.body, hc]; exact ⟨_, rfl⟩

theorem body_q_finite {p : IKParams d} (hp : p.ProperLimits) {ev : Eval N d} (hev : ev.FiniteSteps) {st : IKState N R d}
    (h : ∀ i r, QRow.Finite (st.q i r)) (i : Fin N) (r : Fin R) : QRow.Finite ((p.body ev st).q i r) := by
  have key : ∀ lr, QRow.Finite (stepRow lr (st.q i r) (ev i (st.q i r)).1) :=
    fun lr => stepRow_finite (h i r) (hev i _ (h i r))
  obtain ⟨lr, e⟩ := body_q p ev st i r
  rw [e]
  split
  · exact clampRow_finite hp (key lr)
  · exact key lr

theorem watch_solutions (p : IKParams d) (pr : Option (Progress N R)) (e : Fin N → Fin R → Fl) (s : Sol N R d) :
    (p.watch pr e s).2 = s ∨ ∃ m, (p.watch pr e s).2 = s.keep m := by
  unfold IKParams.watch
  split
  · exact .inl rfl
  · dsimp only
    split
    · exact .inl rfl
    · exact .inr ⟨_, rfl⟩

/-- the record after a body is the record updated at the old joint values, up to `remaining` -/
theorem body_sol (p : IKParams d) (ev : Eval N d) (st : IKState N R d) :
    let s1 := { st.sol with iterations := st.sol.iterations + 1 }.update p.posTol p.rotTol st.q
      (fun i r => (ev i (st.q i r)).2) p.esAny
    (p.body ev st).sol = s1 ∨ ∃ m, (p.body ev st).sol = s1.keep m := watch_solutions p _ _ _

theorem iterate_q_finite {p : IKParams d} (hp : p.ProperLimits) {ev : Eval N d} (hev : ev.FiniteSteps) (k : ℕ)
    {st : IKState N R d} (h : ∀ i r, QRow.Finite (st.q i r)) : ∀ i r, QRow.Finite (((p.body ev)^[k] st).q i r) := by
  induction k generalizing st with
  | zero => exact h
  | succ k ih => rw [Function.iterate_succ_apply]; exact ih (body_q_finite hp hev h)

theorem update_solutions_finite {pt rt : ℝ} {s : Sol N R d} {q : Fin N → Fin R → QRow d} (err : Fin N → Fin R → Fin 6 → Fl)
    (u : Bool) (hs : ∀ i r, QRow.Finite (s.solutions i r)) (hq : ∀ i r, QRow.Finite (q i r)) (i : Fin N) (r : Fin R) :
    QRow.Finite ((s.update pt rt q err u).solutions i r) := by
  rw [(update_fields _ _ _ _ _ _ _).2.1]
  by_cases hc : s.conv i r = true
  · simp only [hc, if_true]; exact hs i r
  · simp only [hc]; exact hq i r

theorem body_solutions_finite {p : IKParams d} {ev : Eval N d} {st : IKState N R d}
    (hs : ∀ i r, QRow.Finite (st.sol.solutions i r)) (hq : ∀ i r, QRow.Finite (st.q i r)) (i : Fin N) (r : Fin R) :
    QRow.Finite ((p.body ev st).sol.solutions i r) := by
  have := update_solutions_finite (pt := p.posTol) (rt := p.rotTol)
    (s := { st.sol with iterations := st.sol.iterations + 1 }) (fun i r => (ev i (st.q i r)).2) p.esAny hs hq i r
  rcases body_sol p ev st with h | ⟨m, h⟩ <;> rw [h] <;> exact this

theorem iterate_solutions_finite {p : IKParams d} (hp : p.ProperLimits) {ev : Eval N d} (hev : ev.FiniteSteps) (k : ℕ)
    {st : IKState N R d} (hq : ∀ i r, QRow.Finite (st.q i r)) (hs : ∀ i r, QRow.Finite (st.sol.solutions i r)) :
    ∀ i r, QRow.Finite (((p.body ev)^[k] st).sol.solutions i r) := by
  induction k generalizing st with
  | zero => exact hs
  | succ k ih =>
    rw [Function.iterate_succ_apply]
    exact ih (body_q_finite hp hev hq) (body_solutions_finite hs hq)

theorem solveCore_finite {p : IKParams d} (hp : p.ProperLimits) {ev : Eval N d} (hev : ev.FiniteSteps)
    {q0 : Fin N → Fin R → QRow d} (hq : ∀ i r, QRow.Finite (q0 i r)) (i : Fin N) (r : Fin R) :
    QRow.Finite ((p.solveCore ev q0).sol.solutions i r) := by
  obtain ⟨k, -, hk, -⟩ := loop_spec p ev p.maxIter ⟨q0, Sol.init N R d, none⟩
  unfold IKParams.solveCore
  dsimp only
  rw [hk]
  apply update_solutions_finite
  · exact iterate_solutions_finite hp hev k hq (fun _ _ _ => rfl)
  · exact iterate_q_finite hp hev k hq

theorem refine_finite {p : IKParams d} (hp : p.ProperLimits) {ev : Eval N d} (hev : ev.FiniteSteps) (i : Fin N) {q : QRow d}
    (h : q.Finite) : (p.refine ev i q).Finite :=
  clampRow_finite hp (stepRow_finite h (hev i q h))

theorem refine_iter_finite {p : IKParams d} (hp : p.ProperLimits) {ev : Eval N d} (hev : ev.FiniteSteps) (i : Fin N) (n : ℕ)
    {q : QRow d} (h : q.Finite) : ((p.refine ev i)^[n] q).Finite := by
  induction n generalizing q with
  | zero => exact h
  | succ n ih => rw [Function.iterate_succ_apply]; exact ih (refine_finite hp hev i h)

/-- the solutions after limit enforcement -/
theorem enforce_solutions (p : IKParams d) (ev : Eval N d) (s : Sol N R d) (i : Fin N) (r : Fin R) :
    (p.enforceLimits ev s).solutions i r =
      (p.refine ev i)^[p.nRefine] (p.clampRow (p.wrapRow (s.solutions i r))) := by
  unfold IKParams.enforceLimits
  dsimp only
  rw [(update_fields _ _ _ _ _ _ _).2.1]
  simp

/-- whatever is refined, the result is a clamped row -/
theorem refine_iter_clamped (p : IKParams d) (ev : Eval N d) (i : Fin N) (n : ℕ) (q : QRow d) :
    ∃ q', (p.refine ev i)^[n] (p.clampRow q) = p.clampRow q' ∧ (n = 0 → q' = q) := by
  cases n with
  | zero => exact ⟨q, rfl, fun _ => rfl⟩
  | succ n => exact ⟨_, Function.iterate_succ_apply' _ _ _, fun h => absurd h (Nat.succ_ne_zero n)⟩

theorem clampRow_within {p : IKParams d} (hle : ∀ j, Fl.le (p.low j) (p.high j)) {q : QRow d} (h : (p.clampRow q).Finite)
    (j : Fin d) : Fl.le (p.low j) (p.clampRow q j) ∧ Fl.le (p.clampRow q j) (p.high j) := by
  refine Fl.clamp_mem ?_ (hle j)
  intro hn
  have := h j
  rw [IKParams.clampRow, hn, Fl.clamp_nan] at this
  simp [Fl.isFinite] at this

/-! ## C61 -/

theorem roundEven_near (x : ℝ) : |x - Fl.roundEven x| ≤ 1 / 2 := by
  have h1 := Int.floor_le x
  have h2 := Int.lt_floor_add_one x
  unfold Fl.roundEven
  dsimp only
  rw [abs_le]
  split_ifs <;> push_cast <;> constructor <;> linarith

/-- C61: for finite limits and joint values, wrapping changes only revolute joints, by an integer multiple of 2π, and
brings them within π of the middle of the limits. -/
theorem C61_wrap (p : IKParams d) (q lo hi : Fin d → ℝ) (hlo : ∀ j, p.low j = .fin (lo j)) (hhi : ∀ j, p.high j = .fin (hi j)) :
    ∃ n : Fin d → ℤ, (∀ j, p.wrapRow (fun j => .fin (q j)) j = .fin (q j + n j * (2 * Real.pi))) ∧
      (∀ j, p.revolute j = false → n j = 0) ∧
      (∀ j, p.revolute j = true → |q j + n j * (2 * Real.pi) - (lo j + hi j) / 2| ≤ Real.pi) := by
  have hpi := Real.pi_pos
  refine ⟨fun j => if p.revolute j then Fl.roundEven (1 / (2 * Real.pi) * (1 / 2 * (lo j + hi j) + -q j)) else 0,
    fun j => ?_, fun j hj => by simp [hj], fun j hj => ?_⟩
  · rw [IKParams.wrapRow]
    by_cases hr : p.revolute j = true
    · simp only [hr, if_true, hlo, hhi, Fl.add, Fl.scalePos, Fl.sub, Fl.neg, Fl.round]
      congr 1; ring
    · simp [hr]
  · simp only [hj, if_true]
    have h := roundEven_near (1 / (2 * Real.pi) * (1 / 2 * (lo j + hi j) + -q j))
    generalize Fl.roundEven (1 / (2 * Real.pi) * (1 / 2 * (lo j + hi j) + -q j)) = n at *
    have e : q j + n * (2 * Real.pi) - (lo j + hi j) / 2 =
        (2 * Real.pi) * -(1 / (2 * Real.pi) * (1 / 2 * (lo j + hi j) + -q j) - n) := by field_simp; ring
    rw [e, abs_mul, abs_neg, abs_of_pos (by positivity)]
    nlinarith

/-- values far outside `[-1, 2]` -/
example : ∃ n : Fin 1 → ℤ, |10 + n 0 * (2 * Real.pi) - (-1 + 2) / 2| ≤ Real.pi := by
  obtain ⟨n, -, -, h⟩ := C61_wrap (d := 1) ⟨fun _ => .fin (-1), fun _ => .fin 2, fun _ => true,
    1e-3, 1e-2, 1, 0.2, none, true, none, 2, true, 3, false⟩ (fun _ => 10) (fun _ => -1) (fun _ => 2) (fun _ => rfl) (fun _ => rfl)
  exact ⟨n, h 0 rfl⟩

/-- C61: integer multiples of 2π on revolute joints leave the end-effector pose of the serial chain unchanged. -/
theorem C61_wrap_keeps_pose (root rf fe : Frame) (rootName : Name) (p : List Frame) (h : WF root)
    (hs : StartsAt root rf rootName) (hp : IsPath rf p) (hl : p.getLast? = some fe)
    {B : ℕ} (th : List (Fin B → ℝ)) (hth : th.length = (pathJoints p).length) (n : List (Fin B → ℤ)) (hn : n.length = th.length)
    (hrev : ∀ k j, (pathJoints p)[k]? = some j → j.jtype ≠ .revolute → ∀ b, (n.getD k fun _ => 0) b = 0) :
    ∃ s T, SerialChain.init root fe.name rootName = .ok s ∧ s.fkEnd (.tensor B th) = .ok ⟨B, T⟩ ∧
      s.fkEnd (.tensor B (List.zipWith (fun c m b => c b + m b * (2 * Real.pi)) th n)) = .ok ⟨B, T⟩ := by
  obtain ⟨rest, rfl⟩ := isPath_head hp
  have hws := serialRoot_wf (h.sub hs.1) hp
  set th' := List.zipWith (fun (c : Fin B → ℝ) (m : Fin B → ℤ) b => c b + m b * (2 * Real.pi)) th n with hth'
  have hlen : th'.length = (pathJoints (rf :: rest)).length := by rw [hth', List.length_zipWith, hn, min_self, hth]
  refine ⟨serialOf rf rest, _, serialInit_ok h hs hp hl rfl, serial_fkEnd hws th hth, ?_⟩
  rw [serial_fkEnd hws th' hlen]
  congr 2
  obtain ⟨fl, -, hfn, hfm⟩ := exists_last rf rest
  obtain ⟨pp, hpp, hpl⟩ := exists_path hfm
  funext b
  rw [← hfn, hws.pose_path th' hpp hpl, hws.pose_path th hpp hpl]
  apply pathT_congr
  intro a ha
  have ham := isPath_mem hpp a ha
  by_cases ma : Moving a.joint
  · have hcol : column (serialRoot rf rest) a.joint < th.length := by
      rw [hth, pathJoints_length]
      obtain ⟨e, he, rfl⟩ := mem_visit_iff.2 ham
      exact column_lt he ma
    have hget : (pathJoints (rf :: rest))[column (serialRoot rf rest) a.joint]? = some a.joint := by
      have : pathJoints (rf :: rest) = movingJoints (serialRoot rf rest) := by rw [serialRoot_moving]; rfl
      rw [this]
      have hlt : column (serialRoot rf rest) a.joint < (movingJoints (serialRoot rf rest)).length := by
        rw [← pathJoints_length, ← hth]; exact hcol
      obtain ⟨g, hg, mg, hgc, hgj⟩ := column_frame hws hlt
      rw [hgj]
      exact congrArg (fun x => some (Frame.joint x)) (hws.column_inj hg ham mg ma hgc)
    have e : colVal (serialRoot rf rest) th' b a.joint = colVal (serialRoot rf rest) th b a.joint +
        ((n.getD (column (serialRoot rf rest) a.joint) fun _ => 0) b : ℤ) * (2 * Real.pi) := by
      simp only [colVal, List.getD, hth', List.getElem?_zipWith, List.getElem?_eq_getElem hcol,
        List.getElem?_eq_getElem (hn ▸ hcol : _ < n.length), Option.getD_some]
    rw [e]
    by_cases hr : a.joint.jtype = .revolute
    · simp only [motion, hr, rotAbout_add_int]
    · rw [hrev _ _ hget hr b]; simp
  · have : a.joint.jtype = .fixed := by simpa [Moving] using ma
    simp [motion, this]

end PK
