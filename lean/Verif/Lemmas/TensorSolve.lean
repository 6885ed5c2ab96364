import Verif.Lemmas.TensorIK

/-!
# The solver on tensors is the solver on rows
-/

namespace PK
open Tn
noncomputable section
open Classical

variable {N R d : ℕ} (dt : DType) (v : Device)

/-- The tensors of a solution -/
def Sol.tensors (t : Tag) (s : Sol N R d) : SolT where
  iterations := s.iterations
  numRetries := R
  dof := d
  solutions := tab3 t s.solutions
  remaining := tab1 (eqT t) s.remaining
  errPos := tab2 t s.errPos
  errRot := tab2 t s.errRot
  convPos := tab2 (eqT t) s.convPos
  convRot := tab2 (eqT t) s.convRot
  conv := tab2 (eqT t) s.conv
  convPosAny := tab1 (eqT t) s.convPosAny
  convRotAny := tab1 (eqT t) s.convRotAny
  convAny := tab1 (eqT t) s.convAny

theorem init_tensors (t : Tag) : SolT.init d N R t = (Sol.init N R d).tensors t := by
  simp only [SolT.init, Sol.tensors, Sol.init, full_1, full_2, full_3]

theorem keep_tensors (t : Tag) (s : Sol N R d) (mask : Fin N → Bool) :
    (s.tensors t).keep (tab1 (eqT t) mask) = .ok ((s.keep mask).tensors t) := by
  simp only [SolT.keep, Sol.tensors, andB, bin_1, ok_bind]
  rfl

theorem ofFn3 {α : Type} (f : Fin 3 → α) : List.ofFn f = [f 0, f 1, f 2] := by simp [List.ofFn_succ]
theorem ofFn6 {α : Type} (f : Fin 6 → α) : List.ofFn f = [f 0, f 1, f 2, f 3, f 4, f 5] := by
  simp [List.ofFn_succ]

theorem errNorm_ofFn (dx : Fin 6 → Fl) : Fl.norm (List.ofFn dx) = errNorm dx := by rw [ofFn6]; rfl

theorem update_tensors (t : Tag) (hR : 0 < R) (hd : 0 < d) (pT rT : ℝ) (s : Sol N R d) (q : Fin N → Fin R → QRow d)
    (err : Fin N → Fin R → Fin 6 → Fl) (uk : Bool) (km : Option (Fin N → Bool)) :
    (s.tensors t).update pT rT (tab2 t (flat q)) (tab2 t (flat err)) uk (km.map (tab1 (eqT t))) =
      .ok ((s.update pT rT q err uk km).tensors t) := by
  have hdev : (eqT t).dev = t.dev := rfl
  have e1 : reshapeInfer (tab2 t (flat err)) [(s.tensors t).numRetries, 6] = .ok (tab3 t err) := by
    rw [show (s.tensors t).numRetries = R from rfl, reshape_split t (flat err) hR (by omega)]
    simp only [flat_pr]
  have e2 : reshapeInfer (tab2 t (flat q)) [(s.tensors t).numRetries, (s.tensors t).dof] = .ok (tab3 t q) := by
    rw [show (s.tensors t).numRetries = R from rfl, show (s.tensors t).dof = d from rfl, reshape_split t (flat q) hR hd]
    simp only [flat_pr]
  rw [SolT.update, e1, ok_bind, slice_3 t err 0 3 (by omega) (by omega), ok_bind, norm_3, ok_bind,
    slice_3 t err 3 6 (by omega) (by omega), ok_bind, norm_3, ok_bind]
  simp only [testG_2, andB, bin_2, ok_bind, anyDim1_2, e2]
  have e3 : ∀ c : Fin N → Bool, (km.map (tab1 (eqT t))).getD (notB (tab1 (eqT t) c)) =
      tab1 (eqT t) (km.getD fun i => !c i) := by
    intro c; rw [notB_1]; cases km <;> rfl
  simp only [e3]
  have n1 : ∀ i r, Fl.norm (List.ofFn fun l : Fin (3 - 0) => err i r ⟨0 + l, by omega⟩) =
      Fl.norm [err i r 0, err i r 1, err i r 2] := by
    exact fun i r => congrArg Fl.norm (ofFn3 fun l : Fin 3 => err i r ⟨0 + l, by omega⟩)
  have n2 : ∀ i r, Fl.norm (List.ofFn fun l : Fin (6 - 3) => err i r ⟨3 + l, by omega⟩) =
      Fl.norm [err i r 3, err i r 4, err i r 5] := by
    exact fun i r => congrArg Fl.norm (ofFn3 fun l : Fin 3 => err i r ⟨3 + l, by omega⟩)
  simp only [n1, n2]
  have b1 : ∀ {α : Type} (c : Bool) (a b : α), (bif !c then a else b) = if c then b else a := by
    intro α c a b; cases c <;> rfl
  cases uk
  · simp only [Bool.false_eq_true, if_false, Sol.tensors, notB_2, unsqueeze_2, sel_3 t hdev, sel_2 t hdev, orB, bin_2, bin_1,
      ok_bind, pure_ok, Sol.update, b1]
    congr 3
    funext i r k
    split_ifs with h1 h2 h2
    all_goals first | rfl | simp_all
  · simp only [if_true, keep_tensors, ok_bind]
    simp only [Sol.tensors, notB_2, unsqueeze_2, sel_3 t hdev, sel_2 t hdev, orB, bin_2, bin_1,
      ok_bind, pure_ok, Sol.update, b1]
    congr 3
    funext i r k
    split_ifs with h1 h2 h2
    all_goals first | rfl | simp_all

/-! ## Evaluations -/

/-- `E` treats every row on its own: row `i * R + r` gets what `ev` gives for problem `i` and that row. -/
structure RowWise (t : Tag) (R : ℕ) (E : EvalT) (ev : Eval N d) : Prop where
  step : ∀ q : Fin N → Fin R → QRow d, E.step (tab2 t (flat q)) =
    .ok (tab3 t fun b k (_ : Fin 1) => (ev b.divNat (flat q b)).1 k, tab3 t fun b k (_ : Fin 1) => (ev b.divNat (flat q b)).2 k)
  err : ∀ q : Fin N → Fin R → QRow d, E.err (tab2 t (flat q)) = .ok (tab3 t fun b k (_ : Fin 1) => (ev b.divNat (flat q b)).2 k)

/-! ## Line search -/

variable {dt v}

theorem lineLoop_tensors {E : EvalT} {ev : Eval N d} (h : RowWise (flTag dt v) R E ev) (ls : LineSearch)
    (q dq : Fin N → Fin R → QRow d) (err : Fin N → Fin R → Fl) : ∀ (k : ℕ) (lr : Fin N → Fin R → ℝ) (rem : Fin N → Fin R → Bool),
    ls.loopT E (tab2 (flTag dt v) (flat q)) (tab2 (flTag dt v) (flat dq)) (sq (flTag dt v) (flat err)) k
      (tab1 (flTag .f32 v) (flat lr)) (tab1 (eqT (flTag dt v)) (flat rem)) =
    .ok (tab1 (flTag .f32 v) (flat (ls.loop err (fun i r lr => errNorm (ev i (stepRow lr (q i r) (dq i r))).2) k (lr, rem)).1))
  | 0, _, _ => rfl
  | k + 1, lr, rem => by
    rw [LineSearch.loopT, LineSearch.loop, any_1]
    have hex : (∃ b, flat rem b = true) ↔ ∃ i r, rem i r = true := exists_flat (p := fun i r => rem i r = true)
    by_cases hr : ∃ i r, rem i r = true
    · rw [if_pos (by rw [decide_eq_true_eq, hex]; exact hr), if_pos hr, stepRows, ok_bind,
        show (fun (b : Fin (N * R)) j => Fl.add (flat q b j) (Fl.mulReal (flat lr b) (flat dq b j))) =
          flat fun i r => stepRow (lr i r) (q i r) (dq i r) from rfl, h.err, ok_bind, normSq, ok_bind, bin_sq, ok_bind, testG_sq]
      simp only [notB_sq, mulWhere_sq, ok_bind, and_sq, errNorm_ofFn]
      refine Eq.trans ?_ (lineLoop_tensors h ls q dq err k _ _)
      congr 2
      funext b
      simp only [LineSearch.pass, flat, improvedBy, Bool.cond_not]
      rw [Bool.cond_eq_ite]
      rfl
    · rw [if_neg (by rw [decide_eq_true_eq, hex]; exact hr), if_neg hr]

theorem search_tensors {E : EvalT} {ev : Eval N d} (h : RowWise (flTag dt v) R E ev) (hN : 0 < N) (ls : LineSearch)
    (q dq : Fin N → Fin R → QRow d) (dx : Fin N → Fin R → Fin 6 → Fl) (rem : Fin N → Bool) :
    ls.searchT E N (tab2 (flTag dt v) (flat q)) (tab2 (flTag dt v) (flat dq))
      (tab3 (flTag dt v) fun b k (_ : Fin 1) => flat dx b k) (tab1 (eqT (flTag dt v)) rem) =
    .ok (tab1 (flTag .f32 v) (flat (ls.search (fun i r => errNorm (dx i r))
      (fun i r lr => errNorm (ev i (stepRow lr (q i r) (dq i r))).2) rem))) := by
  have hM : N * R / N = R := Nat.mul_div_cancel_left R hN
  rw [LineSearch.searchT]
  simp only [tab2_shape, if_neg (show N ≠ 0 by omega), hM, normSq, ok_bind, notB_1, full_2, putFalse_2, reshape_merge2]
  have e1 : Tn.full (flTag .f32 (tab2 (flTag dt v) (flat q)).tag.dev) [N * R] ls.maxLr =
      tab1 (flTag .f32 v) (flat fun (_ : Fin N) (_ : Fin R) => ls.maxLr) := full_1 _ _
  rw [e1]
  refine Eq.trans ?_ (lineLoop_tensors h ls q dq _ ls.maxIter _ _)
  congr 2
  simp only [Bool.not_not, Bool.true_and]

/-! ## Progress -/

/-- The tensors of `no_improve_counter` and `err_min` -/
def Progress.tensors (t : Tag) (p : Progress N R) : ProgressT := (tab2 t p.1, tab2 t p.2)

theorem keepT_tensors (t : Tag) (mode : NoImp) (could : Fin N → Fin R → Bool) :
    mode.keepT R (tab2 (eqT t) could) = .ok (tab1 (eqT t) (mode.keep could)) := by
  cases mode with
  | all => exact allDim1_2 _ _
  | any => exact anyDim1_2 _ _
  | ratio x =>
    rw [NoImp.keepT, countDim1_2, ok_bind]
    refine congrArg Except.ok (eq_tab1 rfl rfl fun i => (ofFn_get (valid1.2 i.2)).trans ?_)
    rw [tab1_get]; rfl

theorem watch_tensors (t : Tag) (hR : 0 < R) (p : IKParams d) (pr : Option (Progress N R)) (err : Fin N → Fin R → Fl)
    (s : Sol N R d) :
    watchT p.noImp p.patience R (pr.map (Progress.tensors t)) (tab2 t err) (s.tensors t) =
      .ok ((p.watch pr err s).1.map (Progress.tensors t), (p.watch pr err s).2.tensors t) := by
  have hdev : (eqT t).dev = t.dev := rfl
  cases hn : p.noImp with
  | none => simp only [watchT, IKParams.watch, hn]
  | some mode =>
    cases pr with
    | none =>
      simp only [watchT, IKParams.watch, hn, Option.map_none, progressStep, Option.map_some, Progress.tensors, tab2_tag, tab2_shape, full_2]
    | some pr =>
      obtain ⟨cnt, em⟩ := pr
      have hcmp : cmpG Fl.lt (tab2 t err) (tab2 t em) = .ok (tab2 (eqT t) fun i r => decide (Fl.lt (err i r) (em i r))) := by
        rw [cmpG, bin_2, ok_bind]
        exact congrArg Except.ok (eq_tab2 rfl rfl fun i r => (ofFn_get (valid2.2 ⟨i.2, r.2⟩)).trans (by rw [tab2_get]))
      simp only [watchT, IKParams.watch, hn, Option.map_some, Progress.tensors, hcmp, ok_bind, sel_2 t hdev, tab2_tag, tab2_shape, full_2, mapG_2, testG_2,
        reshape_rows _ _ hR, keepT_tensors, keep_tensors, pure_ok, progressStep, Bool.cond_eq_ite]

/-! ## The loop -/

/-- The tensors of the state of the main loop -/
def IKState.tensors (t : Tag) (st : IKState N R d) : StateT :=
  ⟨tab2 t (flat st.q), st.sol.tensors t, st.progress.map (Progress.tensors t)⟩

theorem lowT_tab (p : IKParams d) (t : Tag) : p.lowT t = tab1 t p.low := rfl
theorem highT_tab (p : IKParams d) (t : Tag) : p.highT t = tab1 t p.high := rfl
theorem revT_tab (p : IKParams d) (t : Tag) : p.revT t = tab1 (eqT t) p.revolute := rfl

theorem move_tensors {E : EvalT} {ev : Eval N d} (h : RowWise (flTag dt v) R E ev) (hN : 0 < N) (p : IKParams d)
    (q : Fin N → Fin R → QRow d) (out : Fin N → Fin R → QRow d × (Fin 6 → Fl)) (rem : Fin N → Bool) :
    p.moveT E N (flTag dt v) (tab2 (flTag dt v) (flat q)) (tab2 (flTag dt v) (flat fun i r => (out i r).1))
      (tab3 (flTag dt v) fun b k (_ : Fin 1) => flat (fun i r => (out i r).2) b k) (tab1 (eqT (flTag dt v)) rem) =
    .ok (tab2 (flTag dt v) (flat
      (if p.clamps then fun i r => p.clampRow (stepRow (p.rates ev q out rem i r) (q i r) (out i r).1)
        else fun i r => stepRow (p.rates ev q out rem i r) (q i r) (out i r).1))) := by
  have hc : ∀ x : Fin N → Fin R → QRow d,
      (if p.clamps = true then clampT (tab2 (flTag dt v) (flat x)) (p.lowT (flTag dt v)) (p.highT (flTag dt v))
        else (pure (tab2 (flTag dt v) (flat x)) : Except Err (Tn Fl))) =
      .ok (tab2 (flTag dt v) (flat (if p.clamps then fun i r => p.clampRow (x i r) else x))) := by
    intro x
    split_ifs
    · rw [lowT_tab, highT_tab, clamp_2]; rfl
    · rfl
  rw [← hc]
  cases hl : p.lineSearch with
  | none =>
    have hr : p.rates ev q out rem = fun _ _ => p.lr := by simp only [IKParams.rates, hl]
    simp only [IKParams.moveT, hl, mapG_2, bin_2, ok_bind, hr]
    rfl
  | some ls =>
    have hr : p.rates ev q out rem = ls.search (fun i r => errNorm (out i r).2)
      (fun i r lr => errNorm (ev i (stepRow lr (q i r) (out i r).1)).2) rem := by simp only [IKParams.rates, hl]
    simp only [IKParams.moveT, hl, search_tensors h hN, ok_bind, stepRows, hr]
    rfl

theorem body_tensors {E : EvalT} {ev : Eval N d} (h : RowWise (flTag dt v) R E ev) (hN : 0 < N) (hR : 0 < R) (hd : 0 < d)
    (p : IKParams d) (st : IKState N R d) :
    p.bodyT E N R (flTag dt v) (st.tensors (flTag dt v)) = .ok ((p.body ev st).tensors (flTag dt v)) := by
  rw [IKParams.bodyT]
  simp only [IKState.tensors, h.step, ok_bind, squeeze_3]
  have e1 : reshapeInfer (tab2 (flTag dt v) fun (b : Fin (N * R)) k => (ev b.divNat (flat st.q b)).2 k) [R, 6] =
      .ok (tab3 (flTag dt v) fun i r => (ev i (st.q i r)).2) := by
    rw [reshape_split _ _ hR (by omega)]
    simp only [flat_pr, pr_divNat]
  rw [e1, ok_bind, norm_3, ok_bind]
  have e2 := update_tensors (flTag dt v) hR hd p.posTol p.rotTol { st.sol with iterations := st.sol.iterations + 1 } st.q
    (fun i r => (ev i (st.q i r)).2) p.esAny none
  have e3 : ({ st.sol.tensors (flTag dt v) with iterations := (st.sol.tensors (flTag dt v)).iterations + 1 } : SolT) =
      ({ st.sol with iterations := st.sol.iterations + 1 } : Sol N R d).tensors (flTag dt v) := rfl
  rw [e3]
  have e4 : (tab2 (flTag dt v) fun (b : Fin (N * R)) k => (ev b.divNat (flat st.q b)).2 k) =
      tab2 (flTag dt v) (flat fun i r => (ev i (st.q i r)).2) := rfl
  rw [e4]
  rw [show (none : Option (Tn Bool)) = (none : Option (Fin N → Bool)).map (tab1 (eqT (flTag dt v))) from rfl, e2, ok_bind]
  simp only [errNorm_ofFn]
  rw [watch_tensors _ hR, ok_bind]
  have e5 := move_tensors h hN p st.q (fun i r => ev i (st.q i r))
    ((p.watch st.progress (fun i r => errNorm (ev i (st.q i r)).2)
      (({ st.sol with iterations := st.sol.iterations + 1 } : Sol N R d).update p.posTol p.rotTol st.q
        (fun i r => (ev i (st.q i r)).2) p.esAny none)).2.remaining)
  refine (congrArg (· >>= _) e5).trans ?_
  rfl

theorem loop_tensors {E : EvalT} {ev : Eval N d} (h : RowWise (flTag dt v) R E ev) (hR : 0 < R) (hd : 0 < d) (p : IKParams d) :
    ∀ (k : ℕ) (st : IKState N R d),
    p.loopT E N R (flTag dt v) k (st.tensors (flTag dt v)) = .ok ((p.loop ev k st).tensors (flTag dt v))
  | 0, _ => rfl
  | k + 1, st => by
    have ha : anyAll (st.tensors (flTag dt v)).sol.remaining = decide (∃ i, st.sol.remaining i = true) := any_1 _ _
    rw [IKParams.loopT, IKParams.loop, ha]
    by_cases hr : ∃ i, st.sol.remaining i = true
    · have hN : 0 < N := by obtain ⟨i, _⟩ := hr; exact i.pos
      rw [if_pos (by simpa using hr), if_pos hr, body_tensors h hN hR hd, ok_bind, loop_tensors h hR hd p k]
    · rw [if_neg (by simpa using hr), if_neg hr]

/-! ## Joint limits -/

theorem scalePos_two_pi (x : Fl) : Fl.scalePos Real.pi (Fl.scalePos 2 x) = Fl.scalePos (2 * Real.pi) x := by
  cases x <;> simp only [Fl.scalePos]
  congr 1; ring

theorem wrap_tensors (p : IKParams d) (t : Tag) (q : Fin N → Fin R → QRow d) :
    p.wrapT t (tab2 t (flat q)) = .ok (tab2 t (flat fun i r => p.wrapRow (q i r))) := by
  rw [IKParams.wrapT]
  simp only [lowT_tab, highT_tab, revT_tab, bin_1, ok_bind, mapG_1, bin_row2, mapG_2, takeMask_2, bin_2, scalePos_two_pi]
  refine (putMask_2 t (eqT t) (flat q) p.revolute fun b j => Fl.add (flat q b j) (Fl.scalePos (2 * Real.pi) (Fl.round
    (Fl.scalePos (1 / (2 * Real.pi)) (Fl.sub (Fl.scalePos (1 / 2) (Fl.add (p.low j) (p.high j))) (flat q b j)))))).trans ?_
  rfl

theorem refine_tensors {E : EvalT} {ev : Eval N d} {t : Tag} (h : RowWise t R E ev) (p : IKParams d) :
    ∀ (k : ℕ) (q : Fin N → Fin R → QRow d),
    p.refineT E t k (tab2 t (flat q)) = .ok (tab2 t (flat fun i r => (p.refine ev i)^[k] (q i r)))
  | 0, _ => rfl
  | k + 1, q => by
    rw [IKParams.refineT, h.step, ok_bind]
    simp only [squeeze_3, mapG_2, bin_2, ok_bind, lowT_tab, highT_tab, clamp_2]
    exact refine_tensors h p k fun i r => p.refine ev i (q i r)

theorem clear_1 {n : ℕ} (t : Tag) (f : Fin n → Bool) : (tab1 t f).clear = tab1 t fun _ : Fin n => false := full_1 _ _
theorem clear_2 {n m : ℕ} (t : Tag) (f : Fin n → Fin m → Bool) : (tab2 t f).clear = tab2 t fun (_ : Fin n) (_ : Fin m) => false := full_2 _ _

theorem enforce_tensors {E : EvalT} {ev : Eval N d} {t : Tag} (h : RowWise t R E ev) (hR : 0 < R) (hd : 0 < d)
    (p : IKParams d) (s : Sol N R d) : p.enforceT E t (s.tensors t) = .ok ((p.enforceLimits ev s).tensors t) := by
  have e0 : reshapeInfer (s.tensors t).solutions [d] = .ok (tab2 t (flat s.solutions)) := reshape_merge t _ hd
  rw [IKParams.enforceT, e0, ok_bind, wrap_tensors, ok_bind, lowT_tab, highT_tab, clamp_2, ok_bind]
  have e1 := refine_tensors h p p.nRefine fun i r => p.clampRow (p.wrapRow (s.solutions i r))
  refine (congrArg (· >>= _) e1).trans ?_
  rw [ok_bind, h.step, ok_bind]
  simp only [squeeze_3, Sol.tensors, clear_1, clear_2]
  exact update_tensors t hR hd p.posTol p.rotTol { s with
    conv := fun _ _ => false, convAny := fun _ => false, convPos := fun _ _ => false, convRot := fun _ _ => false }
    (fun i r => (p.refine ev i)^[p.nRefine] (p.clampRow (p.wrapRow (s.solutions i r))))
    (fun i r => (ev i ((p.refine ev i)^[p.nRefine] (p.clampRow (p.wrapRow (s.solutions i r))))).2) false none

/-! ## Starting values -/

theorem start_all (t : Tag) (hR : 0 < R) (hd : 0 < d) (q : Fin N → Fin R → QRow d) :
    startT (tab3 t q) N R d = .ok (tab2 t (flat q)) := by
  rw [startT, if_pos (by simp [mul_comm, mul_left_comm])]
  exact reshape_merge t _ hd

theorem start_shared (t : Tag) (hR : 0 < R) (hd : 0 < d) (q : Fin R → QRow d) :
    startT (tab2 t q) N R d = .ok (tab2 t (flat fun _ : Fin N => q)) := by
  by_cases hN : N = 1
  · subst hN
    rw [startT, if_pos (by simp [mul_comm])]
    rw [reshapeInfer_eq (n := R) (by simp [hd]) (by simp)]
    obtain ⟨x, hx, hs, ht, hg⟩ := reshape_at (a := tab2 t q) (s := [R, d]) (by simp)
    rw [hx]
    refine congrArg Except.ok (eq_tab2 (by simpa using hs) ht fun b j => ?_)
    have hb := b.2
    have hb' : b.val < R := by omega
    rw [hg _ [b.val, j.val] (valid2.2 ⟨hb', j.2⟩) (valid2.2 ⟨hb', j.2⟩) rfl]
    refine (tab2_get t q ⟨b.val, hb'⟩ j).trans ?_
    congr 1
    apply Fin.ext
    simp [Nat.mod_eq_of_lt hb']
  · rw [startT, if_neg, if_pos (by simp [mul_comm])]
    · rw [repeatT, if_neg (by simp)]
      refine congrArg Except.ok (eq_tab2 (by simp) rfl fun b j => ?_)
      refine (ofFn_get (by simpa [ValidIx] using b.2)).trans ?_
      have e : (List.zipWith (· % ·) [b.val, j.val] (List.replicate ([N, 1].length - (tab2 t q).shape.length) 1 ++ (tab2 t q).shape)).drop
          ([N, 1].length - (tab2 t q).shape.length) = [b.modNat.val, j.val] := by
        simp [Nat.mod_eq_of_lt j.2]
      rw [e, tab2_get]
      rfl
    · intro hh
      have h1 : R * d = N * d * R := by simpa using hh
      have h2 : N * (d * R) = 1 * (d * R) := by rw [one_mul, ← mul_assoc, ← h1, mul_comm]
      exact hN (Nat.eq_of_mul_eq_mul_right (Nat.mul_pos hd hR) h2)

/-! ## solve -/

theorem solve_tensors {E : EvalT} {ev : Eval N d} (h : RowWise (flTag dt v) R E ev) (hR : 0 < R) (hd : 0 < d) (p : IKParams d)
    {initial : Tn Fl} {q0 : Fin N → Fin R → QRow d} (h0 : startT initial N R d = .ok (tab2 (flTag dt v) (flat q0))) :
    p.solveT E N R (flTag dt v) initial = .ok ((p.solve ev q0).tensors (flTag dt v)) := by
  rw [IKParams.solveT]
  have e1 := loop_tensors h hR hd p p.maxIter ⟨q0, Sol.init N R d, none⟩
  simp only [h0, ok_bind, init_tensors]
  refine (congrArg (· >>= _) e1).trans ?_
  rw [ok_bind]
  simp only [IKState.tensors, h.step, ok_bind, squeeze_3]
  have e2 := update_tensors (flTag dt v) hR hd p.posTol p.rotTol (p.loop ev p.maxIter ⟨q0, Sol.init N R d, none⟩).sol
    (p.loop ev p.maxIter ⟨q0, Sol.init N R d, none⟩).q
    (fun i r => (ev i ((p.loop ev p.maxIter ⟨q0, Sol.init N R d, none⟩).q i r)).2) p.esAny none
  refine (congrArg (· >>= _) e2).trans ?_
  rw [ok_bind, IKParams.solve]
  split_ifs
  · exact enforce_tensors h hR hd p _
  · rfl

end
end PK
