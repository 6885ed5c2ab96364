import Verif.Model.IK
import Verif.Lemmas.Fl
import Verif.Lemmas.Exc
import Mathlib.Tactic.Linarith
import Mathlib.Tactic.FieldSimp

/-! # C49, C50, C56, C57, C60, C62: solution record, line search, stopping rules, initial configurations -/

namespace PK
open Classical

variable {N R d : ℕ}

/-- Operations `solve` performs on its `IKSolution`. -/
inductive SolOp (N R d : ℕ) where
  | update (q : Fin N → Fin R → QRow d) (err : Fin N → Fin R → Fin 6 → Fl) (useKeep : Bool) (mask : Option (Fin N → Bool))
  | keep (mask : Fin N → Bool)
  /-- the reset of l.633-636 -/
  | reset

/-- effect of one operation -/
noncomputable def SolOp.run (posTol rotTol : ℝ) (s : Sol N R d) : SolOp N R d → Sol N R d
  | .update q err u m => s.update posTol rotTol q err u m
  | .keep m => s.keep m
  | .reset => { s with
      conv := fun _ _ => false, convAny := fun _ => false, convPos := fun _ _ => false, convRot := fun _ _ => false }

/-- effect of a history of operations -/
noncomputable def runOps (posTol rotTol : ℝ) (s : Sol N R d) (ops : List (SolOp N R d)) : Sol N R d :=
  ops.foldl (SolOp.run posTol rotTol) s

theorem update_fields (pt rt : ℝ) (s : Sol N R d) (q : Fin N → Fin R → QRow d) (err : Fin N → Fin R → Fin 6 → Fl)
    (u : Bool) (m : Option (Fin N → Bool)) :
    let t := s.update pt rt q err u m
    let ep := fun i r => Fl.norm [err i r 0, err i r 1, err i r 2]
    let er := fun i r => Fl.norm [err i r 3, err i r 4, err i r 5]
    let c := fun i r => decide (Fl.lt (ep i r) (.fin pt)) && decide (Fl.lt (er i r) (.fin rt))
    t.iterations = s.iterations ∧
    t.solutions = (fun i r => if s.conv i r then s.solutions i r else q i r) ∧
    t.errPos = (fun i r => if s.conv i r then s.errPos i r else ep i r) ∧
    t.errRot = (fun i r => if s.conv i r then s.errRot i r else er i r) ∧
    t.convPos = (fun i r => s.convPos i r || decide (Fl.lt (ep i r) (.fin pt))) ∧
    t.convRot = (fun i r => s.convRot i r || decide (Fl.lt (er i r) (.fin rt))) ∧
    t.conv = (fun i r => s.conv i r || c i r) ∧
    t.convAny = (fun i => s.convAny i || decide (∃ r, c i r = true)) ∧
    t.convPosAny = s.convPosAny ∧ t.convRotAny = s.convRotAny ∧
    t.remaining = (if u then fun i => s.remaining i && (m.getD fun i => !decide (∃ r, c i r = true)) i else s.remaining) := by
  unfold Sol.update Sol.keep
  split_ifs <;> exact ⟨rfl, rfl, rfl, rfl, rfl, rfl, rfl, rfl, rfl, rfl, rfl⟩

/-! ## C49 -/

theorem run_sticky (pt rt : ℝ) (s : Sol N R d) (op : SolOp N R d) (hop : op ≠ .reset) (i : Fin N) (r : Fin R) :
    let t := op.run pt rt s
    (s.conv i r = true → t.conv i r = true ∧ t.solutions i r = s.solutions i r ∧
      t.errPos i r = s.errPos i r ∧ t.errRot i r = s.errRot i r) ∧
    (s.convPos i r = true → t.convPos i r = true) ∧ (s.convRot i r = true → t.convRot i r = true) ∧
    (s.convAny i = true → t.convAny i = true) ∧ (t.remaining i = true → s.remaining i = true) := by
  intro t
  cases op with
  | reset => exact absurd rfl hop
  | keep m =>
    refine ⟨fun h => ⟨h, rfl, rfl, rfl⟩, id, id, id, fun h => ?_⟩
    have : (s.remaining i && m i) = true := h
    rw [Bool.and_eq_true] at this; exact this.1
  | update q err u m =>
    obtain ⟨-, h1, h2, h3, h4, h5, h6, h7, -, -, h8⟩ := update_fields pt rt s q err u m
    refine ⟨fun h => ⟨?_, ?_, ?_, ?_⟩, fun h => ?_, fun h => ?_, fun h => ?_, fun h => ?_⟩
    · rw [show t.conv = _ from h6]; simp [h]
    · rw [show t.solutions = _ from h1]; simp [h]
    · rw [show t.errPos = _ from h2]; simp [h]
    · rw [show t.errRot = _ from h3]; simp [h]
    · rw [show t.convPos = _ from h4]; simp [h]
    · rw [show t.convRot = _ from h5]; simp [h]
    · rw [show t.convAny = _ from h7]; simp [h]
    · rw [show t.remaining = _ from h8] at h
      cases u
      · exact h
      · simp only [if_true, Bool.and_eq_true] at h; exact h.1

/-- C49: over every history of updates, from any state: a converged retry stays converged with the same solution and
errors, position/rotation flags stay set, and a problem that is no longer remaining never becomes remaining again. -/
theorem C49_sticky (posTol rotTol : ℝ) (s : Sol N R d) (ops : List (SolOp N R d)) (hops : SolOp.reset ∉ ops)
    (i : Fin N) (r : Fin R) :
    let t := runOps posTol rotTol s ops
    (s.conv i r = true → t.conv i r = true ∧ t.solutions i r = s.solutions i r ∧
      t.errPos i r = s.errPos i r ∧ t.errRot i r = s.errRot i r) ∧
    (s.convPos i r = true → t.convPos i r = true) ∧ (s.convRot i r = true → t.convRot i r = true) ∧
    (s.convAny i = true → t.convAny i = true) ∧ (t.remaining i = true → s.remaining i = true) := by
  induction ops generalizing s with
  | nil => exact ⟨fun h => ⟨h, rfl, rfl, rfl⟩, id, id, id, id⟩
  | cons op ops ih =>
    obtain ⟨a1, a2, a3, a4, a5⟩ := run_sticky posTol rotTol s op (fun h => hops (by simp [h])) i r
    obtain ⟨b1, b2, b3, b4, b5⟩ := ih (op.run posTol rotTol s) (fun h => hops (by simp [h]))
    refine ⟨fun h => ?_, fun h => b2 (a2 h), fun h => b3 (a3 h), fun h => b4 (a4 h), fun h => a5 (b5 h)⟩
    obtain ⟨c1, c2, c3, c4⟩ := a1 h
    obtain ⟨d1, d2, d3, d4⟩ := b1 c1
    exact ⟨d1, d2.trans c2, d3.trans c3, d4.trans c4⟩

/-- a first update converges the retry, the second one brings a different solution and a large error -/
example : (runOps 1 1 (Sol.init 1 1 1)
    [.update (fun _ _ _ => .fin 7) (fun _ _ _ => .fin 0) true none]).conv 0 0 = true := by
  simp [runOps, SolOp.run, Sol.update, Sol.keep, Sol.init, Fl.norm, Fl.isFinite]

/-! ## C50 -/

/-- what the flags say about the recorded errors -/
structure FlagsOk (posTol rotTol : ℝ) (t : Sol N R d) : Prop where
  conv_err : ∀ i r, t.conv i r = true → Fl.lt (t.errPos i r) (.fin posTol) ∧ Fl.lt (t.errRot i r) (.fin rotTol)
  any_iff : ∀ i, t.convAny i = true ↔ ∃ r, t.conv i r = true
  conv_sub : ∀ i r, t.conv i r = true → t.convPos i r = true ∧ t.convRot i r = true

theorem flagsOk_run (pt rt : ℝ) {s : Sol N R d} (h : FlagsOk pt rt s) (op : SolOp N R d) : FlagsOk pt rt (op.run pt rt s) := by
  cases op with
  | reset => exact ⟨fun i r h => by simp [SolOp.run] at h, fun i => by simp [SolOp.run], fun i r h => by simp [SolOp.run] at h⟩
  | keep m => exact ⟨h.conv_err, h.any_iff, h.conv_sub⟩
  | update q err u m =>
    obtain ⟨-, -, h2, h3, h4, h5, h6, h7, -⟩ := update_fields pt rt s q err u m
    change FlagsOk pt rt (s.update pt rt q err u m)
    refine ⟨fun i r => ?_, fun i => ?_, fun i r => ?_⟩
    · rw [h6, h2, h3]
      intro hc
      by_cases hs : s.conv i r = true
      · simpa [hs] using h.conv_err i r hs
      · simpa [hs] using hc
    · rw [h7, h6]
      simp only [Bool.or_eq_true, decide_eq_true_eq, h.any_iff]
      constructor
      · rintro (⟨r, hr⟩ | ⟨r, hr⟩)
        · exact ⟨r, .inl hr⟩
        · exact ⟨r, .inr hr⟩
      · rintro ⟨r, hr | hr⟩
        · exact .inl ⟨r, hr⟩
        · exact .inr ⟨r, hr⟩
    · rw [h6, h4, h5]
      intro hc
      by_cases hs : s.conv i r = true
      · obtain ⟨x, y⟩ := h.conv_sub i r hs
        simp [x, y]
      · simp only [hs, Bool.false_or, Bool.and_eq_true] at hc
        exact ⟨by beta_reduce; rw [hc.1]; simp, by beta_reduce; rw [hc.2]; simp⟩

theorem flagsOk_init (pt rt : ℝ) : FlagsOk pt rt (Sol.init N R d) :=
  ⟨fun i r h => by simp [Sol.init] at h, fun i => by simp [Sol.init], fun i r h => by simp [Sol.init] at h⟩

/-- C50, the part that holds: after every history (updates, mask updates, the reset of limit enforcement) a converged
retry has recorded errors below the tolerances, `converged_any` says whether some retry converged, and convergence
implies position and rotation convergence. Missing: `converged_pos_any`, `converged_rot_any`, see the next theorem. -/
theorem C50_flags_partial (posTol rotTol : ℝ) (ops : List (SolOp N R d)) :
    let t := runOps posTol rotTol (Sol.init N R d) ops
    (∀ i r, t.conv i r = true → Fl.lt (t.errPos i r) (.fin posTol) ∧ Fl.lt (t.errRot i r) (.fin rotTol)) ∧
    (∀ i, t.convAny i = true ↔ ∃ r, t.conv i r = true) ∧
    (∀ i r, t.conv i r = true → t.convPos i r = true ∧ t.convRot i r = true) := by
  intro t
  have : ∀ (ops : List (SolOp N R d)) (s : Sol N R d), FlagsOk posTol rotTol s → FlagsOk posTol rotTol (runOps posTol rotTol s ops) := by
    intro ops
    induction ops with
    | nil => exact fun s h => h
    | cons op ops ih => exact fun s h => ih _ (flagsOk_run posTol rotTol h op)
  have h := this ops _ (flagsOk_init posTol rotTol)
  exact ⟨h.conv_err, h.any_iff, h.conv_sub⟩

/-- C50 fails for `converged_pos_any` and `converged_rot_any`: they are never set, whatever is recorded. -/
theorem C50_fails_pos_any (posTol rotTol : ℝ) (ops : List (SolOp N R d)) (i : Fin N) :
    (runOps posTol rotTol (Sol.init N R d) ops).convPosAny i = false ∧
    (runOps posTol rotTol (Sol.init N R d) ops).convRotAny i = false := by
  have : ∀ (ops : List (SolOp N R d)) (s : Sol N R d), (s.convPosAny i = false ∧ s.convRotAny i = false) →
      (runOps posTol rotTol s ops).convPosAny i = false ∧ (runOps posTol rotTol s ops).convRotAny i = false := by
    intro ops
    induction ops with
    | nil => exact fun s h => h
    | cons op ops ih =>
      intro s h
      refine ih _ ?_
      cases op with
      | reset => exact h
      | keep m => exact h
      | update q err u m =>
        obtain ⟨-, -, -, -, -, -, -, -, h1, h2, -⟩ := update_fields posTol rotTol s q err u m
        change (s.update posTol rotTol q err u m).convPosAny i = false ∧ (s.update posTol rotTol q err u m).convRotAny i = false
        rw [h1, h2]; exact h
  exact this ops _ ⟨rfl, rfl⟩

/-- the position of the retry converged while `converged_pos_any` is unset -/
theorem C50_fails_witness :
    let t := runOps 1 1 (Sol.init 1 1 1) [.update (fun _ _ _ => .fin 7) (fun _ _ _ => .fin 0) true none]
    t.convPos 0 0 = true ∧ t.convPosAny 0 = false := by
  refine ⟨?_, rfl⟩
  simp [runOps, SolOp.run, Sol.update, Sol.keep, Sol.init, Fl.norm, Fl.isFinite]

/-! ## C56 -/

/-- C56: for a still-remaining problem the line search returns `max_lr * decrease ^ k` where `k` is the first index
whose step lowers the error by more than `sufficient_decrease`, and `k = max_iterations` if there is none before;
whatever the other rows of the batch do. -/
theorem C56_first_sufficient_step (ls : LineSearch) (err : Fin N → Fin R → Fl) (errAt : Fin N → Fin R → ℝ → Fl)
    (remaining : Fin N → Bool) (i : Fin N) (r : Fin R) (hrem : remaining i = true) (e : ℝ) (f : ℝ → ℝ)
    (he : err i r = .fin e) (hf : ∀ lr, errAt i r lr = .fin (f lr)) :
    ∃ k ≤ ls.maxIter, ls.search err errAt remaining i r = ls.maxLr * ls.decrease ^ k ∧
      (∀ l < k, ¬ (e - f (ls.maxLr * ls.decrease ^ l) > ls.sufficient)) ∧
      (k < ls.maxIter → e - f (ls.maxLr * ls.decrease ^ k) > ls.sufficient) := by
  have himp : ∀ x, improvedBy ls.sufficient (err i r) (errAt i r x) = true ↔ e - f x > ls.sufficient := by
    intro x
    rw [he, hf]
    simp [improvedBy, Fl.sub, Fl.neg, Fl.add, sub_eq_add_neg]
  have key : ∀ (n j : ℕ) (st : (Fin N → Fin R → ℝ) × (Fin N → Fin R → Bool)),
      (∀ l < j, ¬ (e - f (ls.maxLr * ls.decrease ^ l) > ls.sufficient)) → st.1 i r = ls.maxLr * ls.decrease ^ j →
      (st.2 i r = true ∨ e - f (ls.maxLr * ls.decrease ^ j) > ls.sufficient) →
      ∃ k ≤ j + n, (ls.loop err errAt n st).1 i r = ls.maxLr * ls.decrease ^ k ∧
        (∀ l < k, ¬ (e - f (ls.maxLr * ls.decrease ^ l) > ls.sufficient)) ∧
        (k < j + n → e - f (ls.maxLr * ls.decrease ^ k) > ls.sufficient) := by
    intro n
    induction n with
    | zero => intro j st h1 h2 h3; exact ⟨j, le_rfl, h2, h1, fun h => absurd h (lt_irrefl _)⟩
    | succ n ih =>
      intro j st h1 h2 h3
      rw [LineSearch.loop]
      split_ifs with hex
      · by_cases hi : e - f (ls.maxLr * ls.decrease ^ j) > ls.sufficient
        · have hb : improvedBy ls.sufficient (err i r) (errAt i r (st.1 i r)) = true := by rw [himp, h2]; exact hi
          obtain ⟨k, k1, k2, k3, k4⟩ := ih j (ls.pass err errAt st) h1
            (by simp only [LineSearch.pass]; rw [if_pos hb]; exact h2) (.inr hi)
          refine ⟨k, by omega, k2, k3, fun _ => ?_⟩
          rcases lt_trichotomy k j with hk | hk | hk
          · exact k4 (by omega)
          · rw [hk]; exact hi
          · exact absurd hi (k3 j hk)
        · have hb : ¬ improvedBy ls.sufficient (err i r) (errAt i r (st.1 i r)) = true := by rw [himp, h2]; exact hi
          have hs : st.2 i r = true := h3.resolve_right hi
          obtain ⟨k, k1, k2, k3, k4⟩ := ih (j + 1) (ls.pass err errAt st)
            (fun l hl => by
              rcases Nat.lt_succ_iff_lt_or_eq.1 hl with hl | rfl
              · exact h1 l hl
              · exact hi)
            (by simp only [LineSearch.pass]; rw [if_neg hb, h2, pow_succ, mul_assoc])
            (.inl (by simp only [LineSearch.pass, hs, Bool.true_and, Bool.not_eq_true']; exact Bool.not_eq_true _ ▸ hb))
          exact ⟨k, by omega, k2, k3, fun hk => k4 (by omega)⟩
      · have hs : ¬ st.2 i r = true := fun h => hex ⟨i, r, h⟩
        exact ⟨j, by omega, h2, h1, fun _ => h3.resolve_left hs⟩
  obtain ⟨k, k1, k2, k3, k4⟩ := key ls.maxIter 0 (fun _ _ => ls.maxLr, fun i _ => remaining i) (fun l hl => absurd hl (by omega))
    (by simp) (.inl hrem)
  exact ⟨k, by omega, k2, k3, fun h => k4 (by omega)⟩

/-- a landscape on which the first step overshoots and the second one is accepted -/
example : ∃ k, ({} : LineSearch).search (N := 1) (R := 1) (fun _ _ => .fin 1) (fun _ _ lr => .fin (if lr < 1 then 0 else 2))
    (fun _ => true) 0 0 = 1 * (1 / 2) ^ k := by
  obtain ⟨k, -, h, -⟩ := C56_first_sufficient_step (N := 1) (R := 1) {} (fun _ _ => .fin 1)
    (fun _ _ lr => .fin (if lr < 1 then 0 else 2)) (fun _ => true) 0 0 rfl 1 (fun lr => if lr < 1 then 0 else 2) rfl (fun _ => rfl)
  exact ⟨k, h⟩

/-! ## C57 -/

namespace Spec

/-- The error sequence `e` reaches a new strict minimum at iteration `m`. -/
def ImprovesAt (e : ℕ → ℝ) (m : ℕ) : Prop := ∀ l < m, e m < e l

/-- At iteration `n` a retry has made no improvement for more than `p` consecutive iterations. -/
def Stalled (p : ℕ) (e : ℕ → ℝ) (n : ℕ) : Prop := p < n ∧ ∀ m ≤ n, n ≤ m + p → ¬ ImprovesAt e m

end Spec
open Spec

/-- the bookkeeping after iterations `0 … n` of the error history `e` -/
noncomputable def progressRun (mode : NoImp) (p : ℕ) (e : ℕ → Fin N → Fin R → ℝ) : ℕ → Progress N R × Option (Fin N → Bool)
  | 0 => progressStep mode p none fun i r => .fin (e 0 i r)
  | n + 1 => progressStep mode p (some (progressRun mode p e n).1) fun i r => .fin (e (n + 1) i r)

theorem progressRun_inv (mode : NoImp) (p : ℕ) (e : ℕ → Fin N → Fin R → ℝ) (n : ℕ) (i : Fin N) (r : Fin R) :
    ∃ mn, (progressRun mode p e n).1.2 i r = .fin mn ∧ (∀ l ≤ n, mn ≤ e l i r) ∧ (∃ l ≤ n, mn = e l i r) ∧
      (progressRun mode p e n).1.1 i r ≤ n ∧
      (∀ m ≤ n, n < m + (progressRun mode p e n).1.1 i r → ¬ ImprovesAt (fun l => e l i r) m) ∧
      ((progressRun mode p e n).1.1 i r < n → ImprovesAt (fun l => e l i r) (n - (progressRun mode p e n).1.1 i r)) := by
  induction n with
  | zero =>
    refine ⟨e 0 i r, rfl, fun l hl => by rw [Nat.le_zero.1 hl], ⟨0, le_rfl, rfl⟩, le_rfl, fun m hm h => ?_, fun h => ?_⟩
    · have : (progressRun mode p e 0).1.1 i r = 0 := rfl
      omega
    · exact absurd h (Nat.not_lt_zero _)
  | succ n ih =>
    obtain ⟨mn, h1, h2, ⟨l0, h3, h3'⟩, h4, h5, h6⟩ := ih
    have hlt : decide (Fl.lt (Fl.fin (e (n + 1) i r)) ((progressRun mode p e n).1.2 i r)) = decide (e (n + 1) i r < mn) := by
      rw [h1]; rfl
    by_cases hi : e (n + 1) i r < mn
    · have hc : (progressRun mode p e (n + 1)).1.1 i r = 0 := by
        simp only [progressRun, progressStep, hlt, hi, decide_true, if_true]
      have hm : (progressRun mode p e (n + 1)).1.2 i r = .fin (e (n + 1) i r) := by
        simp only [progressRun, progressStep, hlt, hi, decide_true, if_true]
      refine ⟨_, hm, fun l hl => ?_, ⟨n + 1, le_rfl, rfl⟩, by omega, fun m hm' h => by omega, fun _ => ?_⟩
      · rcases Nat.le_succ_iff.1 hl with hl | rfl
        · exact le_trans hi.le (h2 l hl)
        · exact le_rfl
      · rw [hc]; intro l hl; exact lt_of_lt_of_le hi (h2 l (by omega))
    · have hc : (progressRun mode p e (n + 1)).1.1 i r = (progressRun mode p e n).1.1 i r + 1 := by
        simp only [progressRun, progressStep, hlt, hi, decide_false, Bool.false_eq_true, if_false]
      have hm : (progressRun mode p e (n + 1)).1.2 i r = .fin mn := by
        rw [← h1]; simp only [progressRun, progressStep, hlt, hi, decide_false, Bool.false_eq_true, if_false]
      refine ⟨mn, hm, fun l hl => ?_, ⟨l0, by omega, h3'⟩, by omega, fun m hm' h => ?_, fun h => ?_⟩
      · rcases Nat.le_succ_iff.1 hl with hl | rfl
        · exact h2 l hl
        · exact not_lt.1 hi
      · rcases Nat.le_succ_iff.1 hm' with hm'' | rfl
        · exact h5 m hm'' (by omega)
        · intro him
          have := him l0 (by omega)
          rw [h3'] at hi; exact hi this
      · rw [hc] at h ⊢
        rw [show n + 1 - ((progressRun mode p e n).1.1 i r + 1) = n - (progressRun mode p e n).1.1 i r by omega]
        exact h6 (by omega)

/-- the counter exceeds the patience exactly when the retry stalled -/
theorem could_iff (mode : NoImp) (p : ℕ) (e : ℕ → Fin N → Fin R → ℝ) (n : ℕ) (i : Fin N) (r : Fin R) :
    (((progressRun mode p e n).1.1 i r : ℕ) ≤ p) ↔ ¬ Stalled p (fun l => e l i r) n := by
  obtain ⟨_, -, -, -, h4, h5, h6⟩ := progressRun_inv mode p e n i r
  constructor
  · rintro h ⟨hp, hs⟩
    exact hs _ (Nat.sub_le _ _) (by omega) (h6 (by omega))
  · intro h
    by_contra hc
    exact h ⟨by omega, fun m hm hn => h5 m hm (by omega)⟩

/-- the keep mask at iteration `n ≥ 1` -/
theorem progressRun_mask (mode : NoImp) (p : ℕ) (e : ℕ → Fin N → Fin R → ℝ) (n : ℕ) :
    (progressRun mode p e (n + 1)).2 = some (mode.keep fun i r => decide (¬ Stalled p (fun l => e l i r) (n + 1))) := by
  have : (progressRun mode p e (n + 1)).2 =
      some (mode.keep fun i r => decide (((progressRun mode p e (n + 1)).1.1 i r : ℝ) ≤ (p : ℝ))) := rfl
  rw [this]
  congr 2
  funext i r
  have h := could_iff mode p e (n + 1) i r
  by_cases hc : (progressRun mode p e (n + 1)).1.1 i r ≤ p
  · rw [decide_eq_true (h.1 hc), decide_eq_true (by exact_mod_cast hc)]
  · rw [decide_eq_false (fun hn => hc (h.2 hn)), decide_eq_false (fun hn => hc (by exact_mod_cast hn))]

/-- C57, the part that holds, for every error history: with `"all"` a problem is dropped as soon as *some* retry has
stalled, with `"any"` when *every* retry has stalled, and with a ratio when the fraction of retries that have not stalled
is at most the ratio. (The docstring states the first two the other way round, see the next theorems.) -/
theorem C57_stopping_partial (p : ℕ) (e : ℕ → Fin N → Fin R → ℝ) (n : ℕ) (i : Fin N) (x : ℝ) :
    (∃ m, (progressRun .all p e (n + 1)).2 = some m ∧
      (m i = false ↔ ∃ r, Stalled p (fun l => e l i r) (n + 1))) ∧
    (∃ m, (progressRun .any p e (n + 1)).2 = some m ∧
      (m i = false ↔ ∀ r, Stalled p (fun l => e l i r) (n + 1))) ∧
    (∃ m, (progressRun (.ratio x) p e (n + 1)).2 = some m ∧
      (m i = false ↔ ((Finset.univ.filter fun r => ¬ Stalled p (fun l => e l i r) (n + 1)).card : ℝ) / R ≤ x)) := by
  refine ⟨⟨_, progressRun_mask _ _ _ _, ?_⟩, ⟨_, progressRun_mask _ _ _ _, ?_⟩, ⟨_, progressRun_mask _ _ _ _, ?_⟩⟩
  · simp [NoImp.keep]
  · simp [NoImp.keep]
  · simp [NoImp.keep]

/-- two retries: the first never improves, the second always does -/
noncomputable def mixedHistory : ℕ → Fin 1 → Fin 2 → ℝ := fun n _ r => if r = 0 then 1 else 1 / (n + 1)

theorem mixed_stalled : Stalled 2 (fun l => mixedHistory l 0 0) 3 := by
  refine ⟨by norm_num, fun m hm h him => ?_⟩
  have := him 0 (by omega)
  simp [mixedHistory] at this

theorem mixed_improving : ¬ Stalled 2 (fun l => mixedHistory l 0 1) 3 := by
  rintro ⟨-, h⟩
  refine h 3 le_rfl (by omega) ?_
  intro l hl
  simp only [mixedHistory, Fin.reduceEq, if_false]
  apply one_div_lt_one_div_of_lt
  · positivity
  · have : (l : ℝ) < 3 := by exact_mod_cast hl
    push_cast; linarith

/-- C57 fails: with default patience 2, `"all"` drops a problem although one of its retries still improves in every
iteration (documented: stop when all retries make no improvement). -/
theorem C57_fails_all : ∃ m, (progressRun .all 2 mixedHistory 3).2 = some m ∧ m 0 = false ∧
    ¬ ∀ r, Stalled 2 (fun l => mixedHistory l 0 r) 3 := by
  obtain ⟨⟨m, h1, h2⟩, -⟩ := C57_stopping_partial 2 mixedHistory 2 0 0
  exact ⟨m, h1, h2.2 ⟨0, mixed_stalled⟩, fun h => mixed_improving (h 1)⟩

/-- C57 fails: `"any"` keeps a problem although one retry has stalled (documented: stop when any retry makes no
improvement). -/
theorem C57_fails_any : ∃ m, (progressRun .any 2 mixedHistory 3).2 = some m ∧ m 0 = true ∧
    ∃ r, Stalled 2 (fun l => mixedHistory l 0 r) 3 := by
  obtain ⟨-, ⟨m, h1, h2⟩, -⟩ := C57_stopping_partial 2 mixedHistory 2 0 0
  refine ⟨m, h1, ?_, 0, mixed_stalled⟩
  by_contra hc
  exact mixed_improving (h2.1 (Bool.not_eq_true _ ▸ hc) 1)

/-- C57, equivalence with ratios: with fewer than 1000 retries `"all"` keeps the same problems as ratio 0.999 and `"any"`
the same as ratio 0.001, in every situation. -/
theorem C57_ratio_equivalents_partial (hR : 0 < R) (hR' : R < 1000) (could : Fin N → Fin R → Bool) :
    NoImp.all.keep could = (NoImp.ratio 0.999).keep could ∧ NoImp.any.keep could = (NoImp.ratio 0.001).keep could := by
  have hRr : (0:ℝ) < R := by exact_mod_cast hR
  constructor <;> funext i <;> simp only [NoImp.keep, decide_eq_decide]
  · rw [lt_div_iff₀ hRr]
    constructor
    · intro h
      have : (Finset.univ.filter fun r => could i r = true) = Finset.univ := Finset.filter_true_of_mem fun r _ => h r
      rw [this, Finset.card_univ, Fintype.card_fin]
      norm_num; linarith
    · intro h r
      by_contra hr
      have hc : (Finset.univ.filter fun r => could i r = true).card < R := by
        have := Finset.card_lt_card (Finset.filter_ssubset.2 ⟨r, Finset.mem_univ r, hr⟩ :
          (Finset.univ.filter fun r => could i r = true) ⊂ Finset.univ)
        rwa [Finset.card_univ, Fintype.card_fin] at this
      have h1 : ((Finset.univ.filter fun r => could i r = true).card : ℝ) + 1 ≤ R := by exact_mod_cast hc
      have h2 : (R : ℝ) < 1000 := by exact_mod_cast hR'
      norm_num at h; linarith
  · rw [lt_div_iff₀ hRr]
    constructor
    · rintro ⟨r, hr⟩
      have hc : 0 < (Finset.univ.filter fun r => could i r = true).card :=
        Finset.card_pos.2 ⟨r, Finset.mem_filter.2 ⟨Finset.mem_univ r, hr⟩⟩
      have h1 : (1:ℝ) ≤ (Finset.univ.filter fun r => could i r = true).card := by exact_mod_cast hc
      have h2 : (R : ℝ) < 1000 := by exact_mod_cast hR'
      norm_num; linarith
    · intro h
      have : 0 < (Finset.univ.filter fun r => could i r = true).card := by
        have h0 : (0:ℝ) < (Finset.univ.filter fun r => could i r = true).card := lt_trans (by positivity) h
        exact_mod_cast h0
      obtain ⟨r, hr⟩ := Finset.card_pos.1 this
      exact ⟨r, (Finset.mem_filter.1 hr).2⟩

example : NoImp.all.keep (N := 1) (R := 4) (fun _ r => decide (r.val < 3)) 0 = false := by
  simp only [NoImp.keep, decide_eq_false_iff_not, decide_eq_true_eq]
  intro h; exact absurd (h 3) (by decide)

/-- C57 fails for many retries: with 2000 retries of which one has stalled, ratio 0.999 keeps the problem and `"all"`
drops it. -/
theorem C57_fails_many_retries : ∃ could : Fin 1 → Fin 2000 → Bool,
    NoImp.all.keep could 0 = false ∧ (NoImp.ratio 0.999).keep could 0 = true := by
  refine ⟨fun _ r => decide (r ≠ 0), ?_, ?_⟩
  · simp [NoImp.keep]
  · simp only [NoImp.keep, decide_eq_true_eq]
    have : (Finset.univ.filter fun r : Fin 2000 => r ≠ 0).card = 1999 := by
      rw [Finset.filter_ne', Finset.card_erase_of_mem (Finset.mem_univ _), Finset.card_univ, Fintype.card_fin]
    rw [this]; norm_num

/-! ## C60 -/

theorem body_iterations (p : IKParams d) (ev : Eval N d) (st : IKState N R d) :
    (p.body ev st).sol.iterations = st.sol.iterations + 1 := by
  have hw : ∀ pr e (s : Sol N R d), (p.watch pr e s).2.iterations = s.iterations := by
    intro pr e s
    unfold IKParams.watch
    split
    · rfl
    · dsimp only
      split <;> rfl
  exact (hw _ _ _).trans (update_fields _ _ _ _ _ _ _).1

theorem loop_spec (p : IKParams d) (ev : Eval N d) (n : ℕ) (st : IKState N R d) :
    ∃ k ≤ n, p.loop ev n st = (p.body ev)^[k] st ∧
      (k < n → ∀ i, (p.loop ev n st).sol.remaining i = false) ∧
      (∀ j < k, ∃ i, ((p.body ev)^[j] st).sol.remaining i = true) := by
  induction n generalizing st with
  | zero => exact ⟨0, le_rfl, rfl, fun h => absurd h (lt_irrefl _), fun j h => absurd h (Nat.not_lt_zero _)⟩
  | succ n ih =>
    rw [IKParams.loop]
    split_ifs with h
    · obtain ⟨k, k1, k2, k3, k4⟩ := ih (p.body ev st)
      refine ⟨k + 1, by omega, k2, fun h => k3 (by omega), fun j hj => ?_⟩
      cases j with
      | zero => exact h
      | succ j => exact k4 j (by omega)
    · refine ⟨0, by omega, rfl, fun _ i => ?_, fun j h => absurd h (Nat.not_lt_zero _)⟩
      by_contra hc
      exact h ⟨i, Bool.not_eq_false _ ▸ hc⟩

theorem iterate_iterations (p : IKParams d) (ev : Eval N d) (k : ℕ) (st : IKState N R d) :
    ((p.body ev)^[k] st).sol.iterations = st.sol.iterations + k := by
  induction k generalizing st with
  | zero => rfl
  | succ k ih => rw [Function.iterate_succ_apply, ih, body_iterations]; omega

theorem solve_iterations (p : IKParams d) (ev : Eval N d) (q0 : Fin N → Fin R → QRow d) :
    (p.solve ev q0).iterations = (p.loop ev p.maxIter ⟨q0, Sol.init N R d, none⟩).sol.iterations := by
  have h : (p.solveCore ev q0).sol.iterations = (p.loop ev p.maxIter ⟨q0, Sol.init N R d, none⟩).sol.iterations :=
    (update_fields _ _ _ _ _ _ _).1
  unfold IKParams.solve
  dsimp only
  split_ifs
  · exact ((update_fields _ _ _ _ _ _ _).1).trans h
  · exact h

/-- C60: `iterations` counts the executed steps, there are at most `max_iterations`, the loop stops earlier only when no
problem remains (and then none remains in the result), and a step is only made while some problem remains. -/
theorem C60_terminates (p : IKParams d) (ev : Eval N d) (q0 : Fin N → Fin R → QRow d) :
    let st0 : IKState N R d := ⟨q0, Sol.init N R d, none⟩
    let t := p.solve ev q0
    t.iterations ≤ p.maxIter ∧
    p.loop ev p.maxIter st0 = (p.body ev)^[t.iterations] st0 ∧
    (t.iterations < p.maxIter → ∀ i, t.remaining i = false) ∧
    (∀ j < t.iterations, ∃ i, ((p.body ev)^[j] st0).sol.remaining i = true) := by
  intro st0 t
  obtain ⟨k, k1, k2, k3, k4⟩ := loop_spec p ev p.maxIter st0
  have hk : t.iterations = k := by
    rw [show t.iterations = _ from solve_iterations p ev q0]
    change (p.loop ev p.maxIter st0).sol.iterations = k
    rw [k2, iterate_iterations]; simp [st0, Sol.init]
  rw [hk]
  refine ⟨k1, k2, fun h i => ?_, k4⟩
  have h1 : (p.solveCore ev q0).sol.remaining i = false := by
    obtain ⟨-, -, -, -, -, -, -, -, -, -, h⟩ := update_fields p.posTol p.rotTol (p.loop ev p.maxIter st0).sol
      (p.loop ev p.maxIter st0).q (fun i r => (ev i ((p.loop ev p.maxIter st0).q i r)).2) p.esAny none
    change ((p.loop ev p.maxIter st0).sol.update _ _ _ _ _ _).remaining i = false
    rw [h]
    have hr := k3 (by assumption) i
    split_ifs
    · simp [hr]
    · exact hr
  change (p.solve ev q0).remaining i = false
  unfold IKParams.solve
  dsimp only
  split_ifs
  · unfold IKParams.enforceLimits
    dsimp only
    rw [(update_fields _ _ _ _ _ _ _).2.2.2.2.2.2.2.2.2.2]
    exact h1
  · exact h1

/-! ## C62 -/

theorem replicate_flatten_get {α : Type} (rows : List α) : ∀ (M i r : ℕ), i < M → r < rows.length →
    (List.replicate M rows).flatten[i * rows.length + r]? = rows[r]?
  | 0, i, r, h, _ => absurd h (Nat.not_lt_zero _)
  | M + 1, 0, r, _, h => by
    rw [List.replicate_succ, List.flatten_cons, zero_mul, zero_add, List.getElem?_append_left h]
  | M + 1, i + 1, r, hi, h => by
    rw [List.replicate_succ, List.flatten_cons, List.getElem?_append_right (by rw [add_mul]; omega),
      show (i + 1) * rows.length + r - rows.length = i * rows.length + r by rw [add_mul]; omega]
    exact replicate_flatten_get rows M i r (by omega) h

/-- C62, the part that holds: a `(R, dof)` tensor is accepted exactly when its width is `dof`, and row `i * R + r` of the
flattened problem — retry `r` of problem `i` — starts at `retry_configs[r]`, for any number `M` of targets.
Missing: batched tensors, next theorem. -/
theorem C62_start_rows_partial (dof cols M : ℕ) (hdof : 0 < dof) (rows : List (List ℝ)) :
    (RetryArg.check dof (.mat cols rows) = .ok rows.length ↔ cols = dof) ∧
    (cols ≠ dof → RetryArg.check dof (.mat cols rows) = .error .valueError) ∧
    ∃ start, RetryArg.start dof M rows.length (.mat cols rows) = .ok start ∧ start.length = M * rows.length ∧
      ∀ i < M, ∀ r < rows.length, start[i * rows.length + r]? = rows[r]? := by
  refine ⟨?_, ?_, ?_⟩
  · simp only [RetryArg.check]
    split_ifs with h <;> simp_all
  · intro h; simp [RetryArg.check, h]
  · simp only [RetryArg.start]
    split_ifs with h1 h2
    · have : rows.length = M * rows.length := by
        have : rows.length * dof = (M * rows.length) * dof := by rw [h1]; ring
        exact Nat.eq_of_mul_eq_mul_right hdof this
      refine ⟨rows, rfl, this, fun i hi r hr => ?_⟩
      have hM : M = 1 := by
        have : 1 * rows.length = M * rows.length := by omega
        exact (Nat.eq_of_mul_eq_mul_right (by omega) this).symm
      have : i = 0 := by omega
      rw [this, zero_mul, zero_add]
    · exact ⟨_, rfl, by simp, fun i hi r hr => replicate_flatten_get rows M i r hi hr⟩
    · exact absurd (mul_comm _ _) h2

example : RetryArg.start 2 3 2 (.mat 2 [[1, 2], [3, 4]]) = .ok [[1, 2], [3, 4], [1, 2], [3, 4], [1, 2], [3, 4]] := by
  simp [RetryArg.start]

/-- C62 fails for batched `(N, R, dof)` tensors: the constructor compares the middle dimension with `dof` and rejects
every batch of configurations unless there are as many retries as joints. -/
theorem C62_fails_batched (dof R : ℕ) (blocks : List (List (List ℝ))) (h : R ≠ dof) :
    RetryArg.check dof (.batch R dof blocks) = .error .valueError := by
  simp [RetryArg.check, h]

/-- … while for `R = dof` retries the batch is assigned per problem and retry. -/
theorem C62_square_batch (dof M : ℕ) (blocks : List (List (List ℝ))) (hM : blocks.length = M) :
    RetryArg.check dof (.batch dof dof blocks) = .ok dof ∧
    RetryArg.start dof M dof (.batch dof dof blocks) = .ok blocks.flatten := by
  simp [RetryArg.check, RetryArg.start, hM]

end PK
