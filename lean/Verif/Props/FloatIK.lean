import Verif.Model.FloatIK
import Verif.Props.FloatRot
import Verif.Props.FloatJac
import Verif.Props.IKSolve

/-!
# C116: the solver in floating-point arithmetic
-/

namespace PK
open Spec Matrix Classical

variable {N R d : ℕ}

/-! ## with exact operations it is the solver of `Model/IK.lean` -/

theorem searchWith_exact (ls : LineSearch) (err : Fin N → Fin R → Fl) (errAt : Fin N → Fin R → ℝ → Fl) (rem : Fin N → Bool) :
    ls.searchWith .exact err errAt rem = ls.search err errAt rem := by
  have : ∀ k st, ls.loopWith .exact err errAt k st = ls.loop err errAt k st := by
    intro k
    induction k with
    | zero => intro st; rfl
    | succ k ih => intro st; rw [LineSearch.loopWith, LineSearch.loop, ih]; rfl
  rw [LineSearch.searchWith, LineSearch.search, this]

theorem ratesWith_exact (p : IKParams d) (ev : Eval N d) (q : Fin N → Fin R → QRow d)
    (out : Fin N → Fin R → QRow d × (Fin 6 → Fl)) (rem : Fin N → Bool) :
    p.ratesWith .exact ev q out rem = p.rates ev q out rem := by
  unfold IKParams.ratesWith IKParams.rates
  cases p.lineSearch with
  | none => rfl
  | some ls => exact searchWith_exact ls _ _ _

theorem bodyWith_exact (p : IKParams d) (ev : Eval N d) (st : IKState N R d) : p.bodyWith .exact ev st = p.body ev st := by
  unfold IKParams.bodyWith IKParams.body
  simp only [ratesWith_exact]
  rfl

/-- with the exact operations the solver is that of `Model/IK.lean` -/
theorem solveWith_exact (p : IKParams d) (ev : Eval N d) (q0 : Fin N → Fin R → QRow d) :
    p.solveWith .exact ev q0 = p.solve ev q0 := by
  have : ∀ k st, p.loopWith .exact (N := N) (R := R) ev k st = p.loop ev k st := by
    intro k
    induction k with
    | zero => intro st; rfl
    | succ k ih => intro st; rw [IKParams.loopWith, IKParams.loop, ih, bodyWith_exact]
  unfold IKParams.solveWith IKParams.solve IKParams.solveCoreWith IKParams.solveCore
  simp only [this]
  rfl

/-! ## recorded errors, for any arithmetic -/

variable (ar : SolverArith)

/-- errors at a row -/
noncomputable def posErrWith (ev : Eval N d) (i : Fin N) (q : QRow d) : Fl := ar.norm [(ev i q).2 0, (ev i q).2 1, (ev i q).2 2]
noncomputable def rotErrWith (ev : Eval N d) (i : Fin N) (q : QRow d) : Fl := ar.norm [(ev i q).2 3, (ev i q).2 4, (ev i q).2 5]

/-- the record of a retry: the errors are those of the solution, and a converged retry has errors below the tolerances -/
structure RecordOk (pt rt : ℝ) (ev : Eval N d) (s : Sol N R d) (i : Fin N) (r : Fin R) : Prop where
  pos : s.errPos i r = posErrWith ar ev i (s.solutions i r)
  rot : s.errRot i r = rotErrWith ar ev i (s.solutions i r)
  conv : s.conv i r = true → Fl.lt (s.errPos i r) (.fin pt) ∧ Fl.lt (s.errRot i r) (.fin rt)

theorem updateWith_fields (pt rt : ℝ) (s : Sol N R d) (q : Fin N → Fin R → QRow d) (err : Fin N → Fin R → Fin 6 → Fl) (u : Bool) :
    let t := s.updateWith ar pt rt q err u
    let ep := fun i r => ar.norm [err i r 0, err i r 1, err i r 2]
    let er := fun i r => ar.norm [err i r 3, err i r 4, err i r 5]
    let c := fun i r => decide (Fl.lt (ep i r) (.fin pt)) && decide (Fl.lt (er i r) (.fin rt))
    t.solutions = (fun i r => if s.conv i r then s.solutions i r else q i r) ∧
    t.errPos = (fun i r => if s.conv i r then s.errPos i r else ep i r) ∧
    t.errRot = (fun i r => if s.conv i r then s.errRot i r else er i r) ∧
    t.conv = (fun i r => s.conv i r || c i r) := by
  unfold Sol.updateWith Sol.keep
  split_ifs <;> exact ⟨rfl, rfl, rfl, rfl⟩

theorem record_update {pt rt : ℝ} {ev : Eval N d} {s : Sol N R d} {q : Fin N → Fin R → QRow d} {u : Bool} {i : Fin N} {r : Fin R}
    (h : s.conv i r = true → RecordOk ar pt rt ev s i r) :
    RecordOk ar pt rt ev (s.updateWith ar pt rt q (fun i r => (ev i (q i r)).2) u) i r := by
  obtain ⟨h1, h2, h3, h4⟩ := updateWith_fields ar pt rt s q (fun i r => (ev i (q i r)).2) u
  by_cases hc : s.conv i r = true
  · obtain ⟨a, b, c⟩ := h hc
    refine ⟨?_, ?_, ?_⟩
    · rw [h1, h2]; simpa [hc] using a
    · rw [h1, h3]; simpa [hc] using b
    · rw [h2, h3]; simpa [hc] using fun _ => c hc
  · refine ⟨?_, ?_, ?_⟩
    · rw [h1, h2]; simp [hc, posErrWith]
    · rw [h1, h3]; simp [hc, rotErrWith]
    · rw [h2, h3, h4]; simp [hc]

theorem record_body {p : IKParams d} {ev : Eval N d} {st : IKState N R d} {i : Fin N} {r : Fin R}
    (h : st.sol.conv i r = true → RecordOk ar p.posTol p.rotTol ev st.sol i r) :
    RecordOk ar p.posTol p.rotTol ev (p.bodyWith ar ev st).sol i r := by
  have := record_update ar (q := st.q) (u := p.esAny) (s := { st.sol with iterations := st.sol.iterations + 1 })
    (pt := p.posTol) (rt := p.rotTol) (ev := ev) (i := i) (r := r) (fun hc => ⟨(h hc).pos, (h hc).rot, (h hc).conv⟩)
  have hw : (p.bodyWith ar ev st).sol = _ ∨ ∃ m, (p.bodyWith ar ev st).sol = _ := watch_solutions p _ _ _
  rcases hw with e | ⟨m, e⟩ <;> rw [e]
  · exact this
  · exact ⟨this.pos, this.rot, this.conv⟩

theorem record_loop {p : IKParams d} {ev : Eval N d} {i : Fin N} {r : Fin R} (k : ℕ) {st : IKState N R d}
    (h : st.sol.conv i r = true → RecordOk ar p.posTol p.rotTol ev st.sol i r) :
    (p.loopWith ar ev k st).sol.conv i r = true → RecordOk ar p.posTol p.rotTol ev (p.loopWith ar ev k st).sol i r := by
  induction k generalizing st with
  | zero => exact h
  | succ k ih =>
    rw [IKParams.loopWith]
    split
    · exact ih (fun _ => record_body ar h)
    · exact h

theorem record_solve (p : IKParams d) (ev : Eval N d) (q0 : Fin N → Fin R → QRow d) (i : Fin N) (r : Fin R) :
    RecordOk ar p.posTol p.rotTol ev (p.solveWith ar ev q0) i r := by
  unfold IKParams.solveWith
  dsimp only
  split_ifs
  · unfold IKParams.enforceLimitsWith
    exact record_update ar (fun h => by simp at h)
  · unfold IKParams.solveCoreWith
    exact record_update ar (record_loop ar _ (fun h => by simp [Sol.init] at h))

/-! ## accuracy of the pose error -/

theorem fro_entry {A : M3} {g : ℝ} (h : fro A ≤ g) (i j : Fin 3) : |A i j| ≤ g := by
  refine le_trans ?_ h
  unfold fro
  refine Real.abs_le_sqrt ?_
  refine le_trans ?_ (Finset.single_le_sum (f := fun i => ∑ j, A i j ^ 2) (fun i _ => Finset.sum_nonneg fun j _ => sq_nonneg _) (Finset.mem_univ i))
  exact Finset.single_le_sum (f := fun j => A i j ^ 2) (fun j _ => sq_nonneg _) (Finset.mem_univ j)

/-- the errors that `delta_pose` and `.norm()` give for approximate poses -/
theorem deltaFl_near (m : TrigMachine) {τ g gp et ep : ℝ} (hu : m.u ≤ τ) (hκ : m.κ ≤ τ) (hγ : m.γ ≤ 5 * τ) {M X T' T : M4}
    (hX : IsRigid X) (hT : IsRigid T) (hMr : ∀ i j, |rotPart M i j - rotPart X i j| ≤ g) (hMp : vlen (posPart M - posPart X) ≤ gp)
    (hTr : ∀ i j, |rotPart T' i j - rotPart T i j| ≤ et) (hTp : vlen (posPart T' - posPart T) ≤ ep)
    (hg : 7 * g + 50 * τ ≤ 1 / 100) (het : 7 * et + 50 * τ ≤ 1 / 100) :
    let v := deltaPoseFl m M (posPart T') (matrixToQuaternionFl m.toMachine (rotPart T'))
    |m.norm (head3 v) - vlen (posPart T - posPart X)| ≤ 7 * τ * vlen (posPart T - posPart X) + 1.01 * (ep + gp) ∧
    |m.norm (tail3 v) - rotAngle (rotPart T * (rotPart X)ᵀ)| ≤ 300 * (et + g) + 4660 * τ + 2e-17 := by
  intro v
  have h0 : 0 ≤ τ := m.toMachine.u_nonneg.trans hu
  have g0 := (abs_nonneg _).trans (hMr 0 0)
  have et0 := (abs_nonneg _).trans (hTr 0 0)
  have h1 : τ ≤ 1 / 5000 := by linarith
  have t2 : τ * τ ≤ 1 / 5000 * τ := mul_le_mul_of_nonneg_right h1 h0
  have t20 := mul_nonneg h0 h0
  have hnorm : ∀ w : V3, Rel (5 * τ) (m.norm w) (vlen w) := by
    intro w
    refine .of_abs (by positivity) ?_
    rw [vlen_eq_norm3, abs_of_nonneg (norm3_nonneg _)]
    exact (m.norm_err w).trans (mul_le_mul_of_nonneg_right hγ (norm3_nonneg _))
  constructor
  · have e : head3 v = fun i => m.rnd (posPart T' i - posPart M i) := by
      apply v3_ext <;> rfl
    rw [e]
    have a1 : Rel τ (vlen fun i => m.rnd (posPart T' i - posPart M i)) (vlen (posPart T' - posPart M)) :=
      vlen_rel fun i => m.rel hu _
    have a2 := ((hnorm _).trans a1).mono (show _ ≤ 6.01 * τ by linarith)
    have a3 := a2.abs_sub
    rw [abs_of_nonneg (vlen_nonneg _)] at a3
    have a4 : |vlen (posPart T' - posPart M) - vlen (posPart T - posPart X)| ≤ ep + gp := by
      apply vlen_sub_abs
      have : posPart T' - posPart M - (posPart T - posPart X) = (posPart T' - posPart T) + -(posPart M - posPart X) := by abel
      rw [this]
      refine (vlen_add_le _ _).trans ?_
      have e2 : vlen (-(posPart M - posPart X)) = vlen (posPart M - posPart X) := by
        rw [← neg_one_smul ℝ, vlen_smul]; simp
      linarith
    have a5 := abs_le.1 a4
    have hD := vlen_nonneg (posPart T - posPart X)
    have a6 := abs_add_le (m.norm (fun i => m.rnd (posPart T' i - posPart M i)) - vlen (posPart T' - posPart M))
      (vlen (posPart T' - posPart M) - vlen (posPart T - posPart X))
    rw [sub_add_sub_cancel] at a6
    have ep0 : 0 ≤ ep + gp := (abs_nonneg _).trans a4
    have a7 := mul_le_mul_of_nonneg_left (show vlen (posPart T' - posPart M) ≤ vlen (posPart T - posPart X) + (ep + gp) by linarith) (show 0 ≤ 6.01 * τ by linarith)
    have a8 := mul_le_mul_of_nonneg_right h1 ep0
    have a9 := mul_nonneg h0 hD
    linarith
  · have hx := C37_matrix_to_quaternion_roundtrip (rotPart X) hX.1
    have ht := C37_matrix_to_quaternion_roundtrip (rotPart T) hT.1
    obtain ⟨σ, hσ, ha⟩ := matrixToQuaternionFl_near m.toMachine hu h0 (by linarith) (show et ≤ 1 / 50 by linarith) ht.1 ht.2 hTr
    obtain ⟨ρ, hρ, hb⟩ := matrixToQuaternionFl_near m.toMachine hu h0 (by linarith) (show g ≤ 1 / 50 by linarith) hx.1 hx.2 hMr
    obtain ⟨hw, υ, hυ, hq⟩ := diffFl_near m.toMachine hu h0 (by linarith) (show 7 * et + 50 * τ ≤ 1 / 20 by linarith)
      (show 7 * g + 50 * τ ≤ 1 / 20 by linarith) ht.1 hx.1 hσ hρ
      (a' := matrixToQuaternionFl m.toMachine (rotPart T')) (b' := matrixToQuaternionFl m.toMachine (rotPart M))
      (fun k => by rw [scaleQ_get]; exact ha k) (fun k => by rw [scaleQ_get]; exact hb k)
    have hab : 4 * (7 * et + 50 * τ) * (7 * g + 50 * τ) ≤ 0.04 * (7 * et + 50 * τ) := by
      have := mul_le_mul_of_nonneg_left hg (show 0 ≤ 4 * (7 * et + 50 * τ) by positivity)
      linarith
    have hk := axisAngleFl_near m hu hκ hγ h0 (by linarith) (by linarith)
      (rawMul_unit ht.1 (invert_unit hx.1)) hυ hw hq
    have hD : quaternionToMatrix (quaternionRawMultiply (matrixToQuaternion (rotPart T)) (quaternionInvert (matrixToQuaternion (rotPart X)))) =
        rotPart T * (rotPart X)ᵀ := by
      have hu := isUnitQ_normSq.1 hx.1
      obtain ⟨ei, ui⟩ := quaternionToMatrix_invert hu
      rw [C35_quaternion_to_matrix_mul _ _ (unitQ_ne ht.1) (unitQ_ne (isUnitQ_normSq.2 ui)), ei, ht.2, hx.2]
    rw [hD] at hk
    have e : tail3 v = quaternionToAxisAngleFl m (quaternionMultiplyFl m.toMachine (matrixToQuaternionFl m.toMachine (rotPart T'))
        (quaternionInvert (matrixToQuaternionFl m.toMachine (rotPart M)))) := by
      apply v3_ext <;> rfl
    rw [e]
    set w := quaternionToAxisAngleFl m (quaternionMultiplyFl m.toMachine (matrixToQuaternionFl m.toMachine (rotPart T'))
        (quaternionInvert (matrixToQuaternionFl m.toMachine (rotPart M))))
    have a1 := (hnorm w).abs_sub
    rw [abs_of_nonneg (vlen_nonneg _)] at a1
    have hpi : rotAngle (rotPart T * (rotPart X)ᵀ) ≤ 3.15 := by
      have : rotAngle (rotPart T * (rotPart X)ᵀ) ≤ Real.pi := Real.arccos_le_pi _
      linarith [Real.pi_lt_d2]
    have a2 := abs_le.1 hk
    have a3 : vlen w ≤ 4.4 := by linarith [show (1e-17 : ℝ) ≤ 0.01 by norm_num]
    have a4 := mul_le_mul_of_nonneg_left a3 h0
    have a5 := abs_add_le (m.norm w - vlen w) (vlen w - rotAngle (rotPart T * (rotPart X)ᵀ))
    rw [sub_add_sub_cancel] at a5
    linarith [show (1e-17 : ℝ) ≤ 2e-17 by norm_num]

/-! ## C116 -/

variable {ar}

/-- **C116**: in any floating-point arithmetic, whatever steps the solver took, the errors it reports for a retry with numeric
joint values are the distance and the angle between the target and the exact pose of the ideal robot at the returned joint
values, up to the stated bounds: `δ`, `τ` say how precisely the robot is stored, `et`, `ep` how precisely the target is. -/
theorem C116_errors (m : TrigMachine) {δ τ et ep : ℝ} (hu : m.u ≤ τ) (hκ : m.κ ≤ τ) (hγ : m.γ ≤ 5 * τ) (hn : ar.NormOf m)
    (root rf fe : Frame) (rootName : Name) (path : List Frame) (h : WF root) (hs : StartsAt root rf rootName) (hp : IsPath rf path)
    (hl : path.getLast? = some fe) (hd : d = (pathJoints path).length)
    (s s' : SerialChain) (hse : SerialChain.init root fe.name rootName = .ok s)
    (hse' : SerialChain.initFl m.toMachine root fe.name rootName = .ok s') (I : Ideal) (hI : ∀ f ∈ s.serialFrames, StoredAs δ τ I f)
    (targets T : Fin N → M4) (hT : ∀ i, IsRigid (T i)) (hTr : ∀ i a b, |rotPart (targets i) a b - rotPart (T i) a b| ≤ et)
    (hTp : ∀ i, vlen (posPart (targets i) - posPart (T i)) ≤ ep) (g : ℝ)
    (hg : g = ((1 + δ) ^ 2 * (1 + 54 * τ) * (1 + 3 * m.γ) ^ 3) ^ path.length - 1)
    (hg1 : 7 * g + 50 * τ ≤ 1 / 100) (het : 7 * et + 50 * τ ≤ 1 / 100) (ev : Eval N d) (hev : ReportsErrorFl m s' targets ev)
    (p : IKParams d) (q0 : Fin N → Fin R → QRow d) (i : Fin N) (r : Fin R) (x : Fin d → ℝ)
    (hx : (p.solveWith ar ev q0).solutions i r = fun j => .fin (x j)) :
    let val := colVal s.chain.root (List.ofFn fun j (_ : Fin 1) => x j) 0
    let X := I.pose val s.serialFrames
    let D := vlen (posPart (T i) - posPart X)
    ∃ a b, (p.solveWith ar ev q0).errPos i r = .fin a ∧ (p.solveWith ar ev q0).errRot i r = .fin b ∧
      |a - D| ≤ 7 * τ * D + 1.01 * (ep + g * I.reach val s.serialFrames) ∧
      |b - rotAngle (rotPart (T i) * (rotPart X)ᵀ)| ≤ 300 * (et + g) + 4660 * τ + 2e-17 := by
  intro val X D
  have h0 : 0 ≤ τ := m.toMachine.u_nonneg.trans hu
  obtain ⟨rest, rfl⟩ := isPath_head hp
  have hws := serialRoot_wf (h.sub hs.1) hp
  obtain rfl := Except.ok.inj (hse.symm.trans (serialInit_ok h hs hp hl rfl))
  obtain rfl := Except.ok.inj (hse'.symm.trans (serialInitFl_ok m.toMachine h hs hp hl))
  have hlen : (List.ofFn fun j (_ : Fin 1) => x j).length = (pathJoints (rf :: rest)).length := by rw [List.length_ofFn, hd]
  have et0 := (abs_nonneg _).trans (hTr i 0 0)
  have g0 : τ ≤ 1 / 100 := by linarith
  have hw := tee_within m.toMachine hu hκ g0 hws (List.ofFn fun j (_ : Fin 1) => x j) hI 0
  rw [← hg] at hw
  obtain ⟨J, M, h1, h2⟩ := hev.finite i x
  have hM := congrArg Prod.snd (Except.ok.inj (h1.symm.trans (jacobianTensorFl_ok m.toMachine hws _ hlen)))
  simp only at hM
  rw [← hM] at hw
  obtain ⟨a1, a2⟩ := deltaFl_near m hu hκ hγ hw.rigid (hT i) (fun a b => fro_entry hw.rot a b) hw.pos (hTr i) (hTp i) hg1 het
  obtain ⟨b1, b2, -⟩ := record_solve ar p ev q0 i r
  refine ⟨_, _, ?_, ?_, a1, a2⟩
  · rw [b1, hx, posErrWith, h2, hn.fin]
    rfl
  · rw [b2, hx, rotErrWith, h2, hn.fin]
    rfl

/-- a converged retry has numeric joint values -/
theorem converged_finite (hfin : ∀ (l : List Fl) (t : ℝ), Fl.lt (ar.norm l) (.fin t) → ∀ x ∈ l, x.isFinite = true) {ev : Eval N d}
    (hev : ∀ i (q : QRow d), (∃ j, (q j).isFinite = false) → ∃ a, ((ev i q).2 a).isFinite = false) (p : IKParams d)
    (q0 : Fin N → Fin R → QRow d) {i : Fin N} {r : Fin R} (hc : (p.solveWith ar ev q0).conv i r = true) :
    QRow.Finite ((p.solveWith ar ev q0).solutions i r) := by
  obtain ⟨b1, b2, b3⟩ := record_solve ar p ev q0 i r
  obtain ⟨f1, f2⟩ := b3 hc
  by_contra hn'
  unfold QRow.Finite at hn'
  push Not at hn'
  obtain ⟨j, hj⟩ := hn'
  obtain ⟨a, ha⟩ := hev i _ ⟨j, by simpa using hj⟩
  rw [b1] at f1
  rw [b2] at f2
  have g1 := hfin _ _ f1
  have g2 := hfin _ _ f2
  simp only [List.mem_cons, List.not_mem_nil, or_false, forall_eq_or_imp, forall_eq] at g1 g2
  obtain ⟨c0, c1, c2⟩ := g1
  obtain ⟨c3, c4, c5⟩ := g2
  fin_cases a <;> simp_all

/-- **C116**: in any floating-point arithmetic, a retry reported as converged has numeric joint values, and the exact pose of the
ideal robot there is within the tolerances of the target, up to the stated bounds. -/
theorem C116_converged (m : TrigMachine) {δ τ et ep : ℝ} (hu : m.u ≤ τ) (hκ : m.κ ≤ τ) (hγ : m.γ ≤ 5 * τ) (hn : ar.NormOf m)
    (root rf fe : Frame) (rootName : Name) (path : List Frame) (h : WF root) (hs : StartsAt root rf rootName) (hp : IsPath rf path)
    (hl : path.getLast? = some fe) (hd : d = (pathJoints path).length)
    (s s' : SerialChain) (hse : SerialChain.init root fe.name rootName = .ok s)
    (hse' : SerialChain.initFl m.toMachine root fe.name rootName = .ok s') (I : Ideal) (hI : ∀ f ∈ s.serialFrames, StoredAs δ τ I f)
    (targets T : Fin N → M4) (hT : ∀ i, IsRigid (T i)) (hTr : ∀ i a b, |rotPart (targets i) a b - rotPart (T i) a b| ≤ et)
    (hTp : ∀ i, vlen (posPart (targets i) - posPart (T i)) ≤ ep) (g : ℝ)
    (hg : g = ((1 + δ) ^ 2 * (1 + 54 * τ) * (1 + 3 * m.γ) ^ 3) ^ path.length - 1)
    (hg1 : 7 * g + 50 * τ ≤ 1 / 100) (het : 7 * et + 50 * τ ≤ 1 / 100) (ev : Eval N d) (hev : ReportsErrorFl m s' targets ev)
    (p : IKParams d) (q0 : Fin N → Fin R → QRow d) (i : Fin N) (r : Fin R) (hc : (p.solveWith ar ev q0).conv i r = true) :
    ∃ x : Fin d → ℝ, (p.solveWith ar ev q0).solutions i r = (fun j => .fin (x j)) ∧
      let val := colVal s.chain.root (List.ofFn fun j (_ : Fin 1) => x j) 0
      let X := I.pose val s.serialFrames
      vlen (posPart (T i) - posPart X) ≤ (1 + 8 * τ) * p.posTol + 1.02 * (ep + g * I.reach val s.serialFrames) ∧
      rotAngle (rotPart (T i) * (rotPart X)ᵀ) < p.rotTol + 300 * (et + g) + 4660 * τ + 2e-17 := by
  obtain ⟨b1, b2, b3⟩ := record_solve ar p ev q0 i r
  obtain ⟨f1, f2⟩ := b3 hc
  have hfin := converged_finite hn.finite hev.propagates p q0 hc
  obtain ⟨x, hx⟩ := hfin.exists
  refine ⟨x, hx, ?_⟩
  intro val X
  obtain ⟨a, b, e1, e2, e3, e4⟩ := C116_errors m hu hκ hγ hn root rf fe rootName path h hs hp hl hd s s' hse hse' I hI targets T hT
    hTr hTp g hg hg1 het ev hev p q0 i r x hx
  rw [e1] at f1
  rw [e2] at f2
  have k1 : a < p.posTol := f1
  have k2 : b < p.rotTol := f2
  have e3' := (abs_le.1 e3).1
  have e4' := (abs_le.1 e4).1
  refine ⟨?_, by linarith⟩
  have h0 : 0 ≤ τ := m.toMachine.u_nonneg.trans hu
  have et0 := (abs_nonneg _).trans (hTr i 0 0)
  have ep0 := (vlen_nonneg _).trans (hTp i)
  have h1 : τ ≤ 1 / 5000 := by linarith
  have hl0 := ideal_reach_nonneg I val s.serialFrames
  have hf0 : s.serialFrames ≠ [] := by
    obtain ⟨rest, rfl⟩ := isPath_head hp
    obtain rfl := Except.ok.inj (hse.symm.trans (serialInit_ok h hs hp hl rfl))
    exact List.cons_ne_nil _ _
  have hg0 : 0 ≤ g := by
    have hδ : 0 ≤ δ := by
      obtain ⟨f, hf⟩ := List.exists_mem_of_ne_nil _ hf0
      exact (hI f hf).lo.g_nonneg
    obtain ⟨q1, -⟩ := factor_cols hδ h0 m.γ_nonneg (show τ ≤ 1 / 100 by linarith) rfl (le_refl (0 : ℝ))
    rw [hg]
    have := one_le_pow₀ (n := path.length) q1
    linarith
  set D := vlen (posPart (T i) - posPart X) with hD
  set E := ep + g * I.reach val s.serialFrames with hE
  have hD0 : 0 ≤ D := vlen_nonneg _
  have hE0 : 0 ≤ E := by positivity
  have m1 : (1 - 7 * τ) * D ≤ p.posTol + 1.01 * E := by linarith
  have hP : 0 ≤ p.posTol + 1.01 * E := (mul_nonneg (by linarith) hD0).trans m1
  have m2 : D ≤ (1 + 8 * τ) * (p.posTol + 1.01 * E) := by
    have m3 := mul_le_mul_of_nonneg_left m1 (show 0 ≤ 1 + 8 * τ by linarith)
    have m4 : D ≤ (1 + 8 * τ) * ((1 - 7 * τ) * D) := by
      have m5 : 0 ≤ τ * (1 - 56 * τ) * D := mul_nonneg (mul_nonneg h0 (by linarith)) hD0
      linarith [show (1 + 8 * τ) * ((1 - 7 * τ) * D) = D + τ * (1 - 56 * τ) * D by ring]
    linarith
  have m6 := mul_le_mul_of_nonneg_right h1 hE0
  linarith

/-- **C116**: limits hold in every arithmetic: with enforcement and finite limits, every returned joint value is NaN or lies within
the limits of its joint (a converged retry has no NaN, `converged_finite`). -/
theorem C116_within_limits (ar : SolverArith) (p : IKParams d) (lo hi : Fin d → ℝ) (hlo : ∀ j, p.low j = .fin (lo j))
    (hhi : ∀ j, p.high j = .fin (hi j)) (hle : ∀ j, lo j ≤ hi j) (he : p.enforce = true) (ev : Eval N d)
    (q0 : Fin N → Fin R → QRow d) (i : Fin N) (r : Fin R) (j : Fin d) :
    (p.solveWith ar ev q0).solutions i r j = .nan ∨
    ∃ x, (p.solveWith ar ev q0).solutions i r j = .fin x ∧ lo j ≤ x ∧ x ≤ hi j := by
  have hF : p.hasFiniteLimits = true := by
    simp only [IKParams.hasFiniteLimits, Bool.or_eq_true, decide_eq_true_eq]
    exact .inl ⟨j, by rw [hlo]; rfl⟩
  have e : ∃ q', (p.solveWith ar ev q0).solutions i r = p.clampRow q' := by
    unfold IKParams.solveWith
    simp only [he, hF, Bool.and_self, if_true]
    unfold IKParams.enforceLimitsWith
    simp only
    rw [(updateWith_fields ar _ _ _ _ _ _).1]
    simp only [Bool.false_eq_true, if_false]
    cases p.nRefine with
    | zero => exact ⟨_, rfl⟩
    | succ n => rw [Function.iterate_succ_apply']; exact ⟨_, rfl⟩
  obtain ⟨q', hq'⟩ := e
  rw [hq', IKParams.clampRow, hlo, hhi]
  by_cases hn : q' j = .nan
  · rw [hn, Fl.clamp_nan]; exact .inl rfl
  · obtain ⟨c1, c2⟩ := Fl.clamp_mem (x := q' j) hn (show Fl.le (.fin (lo j)) (.fin (hi j)) from hle j)
    right
    cases hv : Fl.clamp (q' j) (.fin (lo j)) (.fin (hi j)) with
    | fin x => rw [hv] at c1 c2; exact ⟨x, rfl, c1, c2⟩
    | nan => rw [hv] at c1; exact absurd c1 (fun h => h)
    | pinf => rw [hv] at c2; exact absurd c2 (fun h => h)
    | ninf => rw [hv] at c1; exact absurd c1 (fun h => h)

/-! ## binary arithmetic -/

/-- rounding of a finite result -/
noncomputable def rndFl (m : Machine) : Fl → Fl
  | .fin x => .fin (m.rnd x)
  | x => x

/-- the operations of the solver, rounded -/
noncomputable def SolverArith.ofMachine (m : TrigMachine) : SolverArith where
  add x y := rndFl m.toMachine (Fl.add x y)
  sub x y := rndFl m.toMachine (Fl.sub x y)
  mulReal c x := rndFl m.toMachine (Fl.mulReal c x)
  scalePos c x := rndFl m.toMachine (Fl.scalePos c x)
  norm l := match l with
    | [.fin a, .fin b, .fin c] => .fin (m.norm ![a, b, c])
    | l => rndFl m.toMachine (Fl.norm l)
  mul x y := m.rnd (x * y)

theorem normOf_ofMachine (m : TrigMachine) : (SolverArith.ofMachine m).NormOf m := by
  refine ⟨fun a b c => rfl, fun l t hlt => ?_⟩
  have key : Fl.lt (rndFl m.toMachine (Fl.norm l)) (.fin t) → ∀ x ∈ l, x.isFinite = true := by
    intro h
    unfold Fl.norm at h
    split_ifs at h with c1 c2
    · exact absurd h (fun h => h)
    · exact c2
    · exact absurd h (fun h => h)
  unfold SolverArith.ofMachine at hlt
  dsimp only at hlt
  split at hlt
  · simp [Fl.isFinite]
  · exact key hlt

/-- an evaluation as the code makes it exists, whatever the proposed steps are -/
theorem reportsErrorFl_exists (m : TrigMachine) (root rf fe : Frame) (rootName : Name) (path : List Frame) (h : WF root)
    (hs : StartsAt root rf rootName) (hp : IsPath rf path) (hl : path.getLast? = some fe)
    (hd : d = (pathJoints path).length) (targets : Fin N → M4) (step : Fin N → QRow d → QRow d) :
    ∃ (s' : SerialChain) (ev : Eval N d), SerialChain.initFl m.toMachine root fe.name rootName = .ok s' ∧
      ReportsErrorFl m s' targets ev ∧ ∀ i q, (ev i q).1 = step i q := by
  obtain ⟨rest, rfl⟩ := isPath_head hp
  have hws := serialRoot_wf (h.sub hs.1) hp
  have hlen : ∀ x : Fin d → ℝ, (List.ofFn fun j (_ : Fin 1) => x j).length = (pathJoints (rf :: rest)).length := by
    intro x; rw [List.length_ofFn, hd]
  have hj : ∀ x : Fin d → ℝ, ∃ J T, (serialFl m.toMachine rf rest).jacobianTensorFl m.toMachine (B := 1) (List.ofFn fun j _ => x j) = .ok (J, T) :=
    fun x => ⟨_, _, jacobianTensorFl_ok m.toMachine hws _ (hlen x)⟩
  choose J T h1 using hj
  let val : QRow d → Fin d → ℝ := fun q j => match q j with | .fin y => y | _ => 0
  refine ⟨serialFl m.toMachine rf rest, fun i q => (step i q, if ∃ j, (q j).isFinite = false then fun _ => .nan else
    fun a => .fin (deltaPoseFl m (T (val q) 0) (posPart (targets i)) (matrixToQuaternionFl m.toMachine (rotPart (targets i))) a)),
    serialInitFl_ok m.toMachine h hs hp hl, ⟨fun i q => ⟨J q, T q, h1 q, ?_⟩, fun i q hq => ⟨0, by simp only [if_pos hq]; rfl⟩⟩,
    fun i q => rfl⟩
  have : ¬ ∃ j, ((fun j => Fl.fin (q j)) j).isFinite = false := by simp [Fl.isFinite]
  simp only [if_neg this]
  rfl

theorem binaryTrig_bounds (q : ℕ) (hq : 10 ≤ q) : (binaryTrig q (by omega)).u ≤ 1 / 2 ^ q ∧ (binaryTrig q (by omega)).κ ≤ 1 / 2 ^ q ∧
    (binaryTrig q (by omega)).γ ≤ 5 * (1 / 2 ^ q) := by
  obtain ⟨hU, hK⟩ := binary_u q (by omega)
  refine ⟨hU.le, hK.le, ?_⟩
  have h0 : (0 : ℝ) ≤ 1 / 2 ^ q := by positivity
  have h1 : (1 : ℝ) / 2 ^ q ≤ 1 / 1024 := by
    rw [show (1024 : ℝ) = 2 ^ 10 by norm_num]
    exact one_div_le_one_div_of_le (by positivity) (pow_le_pow_right₀ (by norm_num) hq)
  have hγ : (binaryTrig q (by omega)).γ = (1 + 1 / 2 ^ q) ^ 4 - 1 := by
    rw [← hU]; rfl
  rw [hγ]
  generalize (1 : ℝ) / 2 ^ q = u at h0 h1
  have : u * u ≤ u * (1 / 1024) := mul_le_mul_of_nonneg_left h1 h0
  have h3 : u ^ 3 ≤ u * u := by nlinarith [mul_nonneg h0 h0]
  have h4 : u ^ 4 ≤ u * u := by nlinarith [mul_nonneg h0 h0, pow_nonneg h0 3]
  nlinarith

/-- **C116**: with `q` binary digits (24 for `float32`, 53 for `float64`) and exactly representable robot and targets, a converged
retry reaches the target (by the exact forward kinematics, C17) up to the tolerances, `186 n / 2 ^ q` times the length of the arm
and `(54600 n + 4660) / 2 ^ q` rad, where `n` is the number of frames of the chain. -/
theorem C116_precision (q : ℕ) (hq : 10 ≤ q) (hn : ar.NormOf (binaryTrig q (by omega)))
    (root rf fe : Frame) (rootName : Name) (path : List Frame) (h : WF root) (hr : RigidTree root) (hs : StartsAt root rf rootName)
    (hp : IsPath rf path) (hl : path.getLast? = some fe) (hd : d = (pathJoints path).length)
    (hlen : 127400 * (path.length : ℝ) + 5000 ≤ 2 ^ q) (s s' : SerialChain) (hse : SerialChain.init root fe.name rootName = .ok s)
    (hse' : SerialChain.initFl (binary q (by omega)) root fe.name rootName = .ok s') (targets : Fin N → M4)
    (hT : ∀ i, IsRigid (targets i)) (ev : Eval N d) (hev : ReportsErrorFl (binaryTrig q (by omega)) s' targets ev)
    (p : IKParams d) (q0 : Fin N → Fin R → QRow d) (i : Fin N) (r : Fin R) (hc : (p.solveWith ar ev q0).conv i r = true) :
    ∃ (x : Fin d → ℝ) (T : Fin 1 → M4), (p.solveWith ar ev q0).solutions i r = (fun j => .fin (x j)) ∧
      s.fkEnd (.tensor 1 (List.ofFn fun j _ => x j)) = .ok ⟨1, T⟩ ∧
      vlen (posPart (targets i) - posPart (T 0)) ≤ (1 + 8 / 2 ^ q) * p.posTol + 186 * path.length / 2 ^ q *
        asStored.reach (colVal s.chain.root (List.ofFn fun j (_ : Fin 1) => x j) 0) s.serialFrames ∧
      rotAngle (rotPart (targets i) * (rotPart (T 0))ᵀ) < p.rotTol + (54600 * path.length + 4660) / 2 ^ q + 2e-17 := by
  obtain ⟨rest, rfl⟩ := isPath_head hp
  have hws := serialRoot_wf (h.sub hs.1) hp
  have hrs := serialRoot_rigid (hr.sub hs.1) hp
  obtain rfl := Except.ok.inj (hse.symm.trans (serialInit_ok h hs hp hl rfl))
  obtain ⟨b1, b2, b3⟩ := binaryTrig_bounds q hq
  obtain ⟨-, key⟩ := binary_factor q hq
  have h2 : (0 : ℝ) < 2 ^ q := by positivity
  have h0 : (0 : ℝ) ≤ 1 / 2 ^ q := by positivity
  have hI : ∀ f ∈ (serialOf rf rest).serialFrames, StoredAs 0 (1 / 2 ^ q) asStored f := by
    intro f hf
    exact asStored_storedAs hrs h0 f (serialRoot_preorder rf rest ▸ hf)
  have hg := key (rf :: rest).length (by linarith [show (0 : ℝ) ≤ ((rf :: rest).length : ℝ) by positivity])
  set g := ((1 + 0) ^ 2 * (1 + 54 * (1 / 2 ^ q)) * (1 + 3 * (binary q (by omega)).γ) ^ 3) ^ (rf :: rest).length - 1 with hgd
  have hc1 : 7 * (182 * ((rf :: rest).length : ℝ) / 2 ^ q) + 50 * (1 / 2 ^ q) ≤ 1 / 100 := by
    have e : 7 * (182 * ((rf :: rest).length : ℝ) / 2 ^ q) + 50 * (1 / 2 ^ q) = (1274 * ((rf :: rest).length : ℝ) + 50) / 2 ^ q := by ring
    rw [e, div_le_iff₀ h2]
    linarith
  have hlen' : ∀ x : Fin d → ℝ, (List.ofFn fun j (_ : Fin 1) => x j).length = (pathJoints (rf :: rest)).length := by
    intro x; rw [List.length_ofFn, hd]
  have hg1 : 7 * g + 50 * (1 / 2 ^ q) ≤ 1 / 100 := by linarith
  have hg0 : 0 ≤ g := by
    have hγ := (binary q (by omega)).γ_nonneg
    have : (1 : ℝ) ≤ (1 + 0) ^ 2 * (1 + 54 * (1 / 2 ^ q)) * (1 + 3 * (binary q (by omega)).γ) ^ 3 := by
      have a1 : (1 : ℝ) ≤ 1 + 54 * (1 / 2 ^ q) := by linarith
      have a2 : (1 : ℝ) ≤ (1 + 3 * (binary q (by omega)).γ) ^ 3 := one_le_pow₀ (by linarith)
      nlinarith
    have := one_le_pow₀ (n := (rf :: rest).length) this
    linarith
  obtain ⟨x, hx, c1, c2⟩ := C116_converged (binaryTrig q (by omega)) (et := 0) (ep := 0) b1 b2 b3 hn root rf fe rootName (rf :: rest) h hs hp hl hd
    _ s' hse hse' asStored hI targets targets hT (fun i a b => by simp) (fun i => by simp [vlen]) g hgd hg1
    (by linarith) ev hev p q0 i r hc
  obtain ⟨fl, hfl, hfn, -⟩ := exists_last rf rest
  have e1 : poseAt (serialRoot rf rest) (List.ofFn fun j (_ : Fin 1) => x j) (posOf (serialRoot rf rest) (lastName rf rest)) 0 =
      asStored.pose (colVal (serialRoot rf rest) (List.ofFn fun j (_ : Fin 1) => x j) 0) (serialRoot rf rest :: serialNest rest) := by
    rw [asStored_pose, ← hfn]; exact hws.pose_path _ (serial_path rf rest) hfl 0
  refine ⟨x, _, hx, serial_fkEnd hws _ (hlen' x), ?_, ?_⟩
  · rw [e1]
    refine c1.trans ?_
    have hr0 := ideal_reach_nonneg asStored (colVal (serialOf rf rest).chain.root (List.ofFn fun j (_ : Fin 1) => x j) 0)
      (serialOf rf rest).serialFrames
    have k1 := mul_le_mul_of_nonneg_right hg hr0
    have k2 : 1.02 * (182 * ((rf :: rest).length : ℝ) / 2 ^ q) ≤ 186 * (rf :: rest).length / 2 ^ q := by
      rw [mul_div_assoc', div_le_div_iff_of_pos_right h2]
      linarith [show (0 : ℝ) ≤ ((rf :: rest).length : ℝ) by positivity]
    have k3 := mul_le_mul_of_nonneg_right k2 hr0
    have k4 : (1 + 8 * (1 / 2 ^ q)) * p.posTol = (1 + 8 / (2 : ℝ) ^ q) * p.posTol := by ring
    linarith
  · rw [e1]
    refine lt_of_lt_of_le c2 ?_
    have k1 : 300 * (182 * ((rf :: rest).length : ℝ) / 2 ^ q) + 4660 * (1 / 2 ^ q) = (54600 * (rf :: rest).length + 4660) / 2 ^ q := by ring
    linarith

/-- the two-joint arm of `exTree` in double precision: the hypotheses are met by an evaluation that proposes the same step
everywhere -/
example : ∃ (s s' : SerialChain) (ev : Eval 1 2) (fe : Frame), SerialChain.init exTree fe.name [] = .ok s ∧
    SerialChain.initFl (binary 53 (by norm_num)) exTree fe.name [] = .ok s' ∧
    ReportsErrorFl (binaryTrig 53 (by norm_num)) s' (fun _ => 1) ev ∧
    ∀ (p : IKParams 2) (q0 : Fin 1 → Fin 5 → QRow 2) (r : Fin 5),
      (p.solveWith (.ofMachine (binaryTrig 53 (by norm_num))) ev q0).conv 0 r = true →
      ∃ (x : Fin 2 → ℝ) (T : Fin 1 → M4), s.fkEnd (.tensor 1 (List.ofFn fun j _ => x j)) = .ok ⟨1, T⟩ ∧
        rotAngle (rotPart (1 : M4) * (rotPart (T 0))ᵀ) < p.rotTol + 1e-10 := by
  have hst : StartsAt exTree exTree [] := ⟨by rw [preorder_eq]; simp, .inl ⟨rfl, rfl⟩⟩
  have hpa : IsPath exTree [exTree, exTree.children[0], exTree.children[0].children[0]] :=
    IsPath.snoc [exTree] _ _ (IsPath.snoc [] _ _ IsPath.single (by simp)) (by simp)
  have hd : 2 = (pathJoints [exTree, exTree.children[0], exTree.children[0].children[0]]).length := by
    simp [pathJoints, exTree, Frame.children, Frame.joint, Moving]
  obtain ⟨s', ev, h1, h2, -⟩ := reportsErrorFl_exists (binaryTrig 53 (by norm_num)) exTree exTree exTree.children[0].children[0] []
    _ exTree_wf hst hpa rfl hd (fun _ : Fin 1 => 1) (fun _ _ _ => .fin 1)
  obtain ⟨s, hs⟩ : ∃ s, SerialChain.init exTree exTree.children[0].children[0].name [] = .ok s :=
    ⟨_, serialInit_ok exTree_wf hst hpa rfl rfl⟩
  refine ⟨s, s', ev, _, hs, h1, h2, fun p q0 r hc => ?_⟩
  obtain ⟨x, T, -, a, -, b⟩ := C116_precision 53 (by norm_num) (normOf_ofMachine _) exTree exTree exTree.children[0].children[0] [] _
    exTree_wf exTree_rigid hst hpa rfl hd (by norm_num) s s' hs h1 (fun _ => 1) (fun _ => isRigid_one) ev h2 p q0 0 r hc
  refine ⟨x, T, a, b.trans_le ?_⟩
  norm_num
  linarith

/-- limits hold although the proposed steps are far too large, in single precision -/
example (r : Fin 4) :
    let p : IKParams 1 := ⟨fun _ => .fin (-1), fun _ => .fin 2, fun _ => true, 1e-3, 1e-2, 10, 0.2, none, true, none, 2, true, 3, false⟩
    let sol := p.solveWith (.ofMachine (binaryTrig 24 (by norm_num))) (fun (_ : Fin 1) _ => (fun _ => .fin 100, fun _ => .fin 1))
      (fun _ (_ : Fin 4) _ => .fin 50)
    sol.solutions 0 r 0 = .nan ∨ ∃ x, sol.solutions 0 r 0 = .fin x ∧ -1 ≤ x ∧ x ≤ 2 :=
  C116_within_limits _ _ (fun _ => -1) (fun _ => 2) (fun _ => rfl) (fun _ => rfl) (fun _ => by norm_num) rfl _ _ 0 r 0

end PK
