import Verif.Props.IKSolve

/-!
# C87: a start that already solves the problem
-/

namespace PK
open Classical Spec Matrix

variable {N R d : ℕ}

/-- pose and error at numeric joint values -/
theorem start_err {root rf fe : Frame} {rootName : Name} {path : List Frame} (h : WF root) (hr : RigidTree root)
    (hs : StartsAt root rf rootName) (hp : IsPath rf path) (hl : path.getLast? = some fe)
    (hd : d = (pathJoints path).length) {targets : Fin N → M4} (ht : ∀ i, IsRigid (targets i))
    {s : SerialChain} (hse : SerialChain.init root fe.name rootName = .ok s) {ev : Eval N d} (hev : ReportsError s targets ev)
    (i : Fin N) (x : Fin d → ℝ) :
    ∃ T ea, s.fkEnd (.tensor 1 (List.ofFn fun j _ => x j)) = .ok ⟨1, T⟩ ∧ IsRigid (T 0) ∧
      posErr ev i (fun j => .fin (x j)) = .fin (vlen (posPart (targets i) - posPart (T 0))) ∧
      rotErr ev i (fun j => .fin (x j)) = .fin ea ∧ ea ≤ rotAngle (rotPart (targets i) * (rotPart (T 0))ᵀ) * (1 + 1e-13) := by
  obtain ⟨rest, rfl⟩ := isPath_head hp
  have hws := serialRoot_wf (h.sub hs.1) hp
  have hrs := serialRoot_rigid (hr.sub hs.1) hp
  obtain rfl := Except.ok.inj (hse.symm.trans (serialInit_ok h hs hp hl rfl))
  obtain ⟨J, m, h1, h2⟩ := hev.finite i x
  have hlen : (List.ofFn fun j (_ : Fin 1) => x j).length = (pathJoints (rf :: rest)).length := by rw [List.length_ofFn, hd]
  have h3 := jacobianTensor_ok hws (List.ofFn fun j (_ : Fin 1) => x j) hlen
  have hm := congrArg Prod.snd (Except.ok.inj (h1.symm.trans h3))
  simp only at hm
  have hrig : IsRigid (m 0) := by
    obtain ⟨fl, -, hfn, hfm⟩ := exists_last rf rest
    obtain ⟨pp, hpp, hpl⟩ := exists_path hfm
    rw [hm, ← hfn, hws.pose_path _ hpp hpl]
    exact pathT_rigid hrs _ (isPath_mem hpp)
  obtain ⟨a1, -, a2, a3, a4, -⟩ := C58_delta_pose (m 0) (targets i) hrig (ht i)
  refine ⟨m, vlen (tail3 (deltaPose (m 0) (posPart (targets i)) (matrixToQuaternion (rotPart (targets i))))), ?_, hrig, ?_, ?_, a3⟩
  · rw [serial_fkEnd hws _ hlen, hm]
  · rw [posErr, h2, norm_fin3]
    congr 2
    funext k
    have := a1 k
    fin_cases k <;> simpa [head3] using this
  · rw [rotErr, h2, norm_fin3]
    congr 2

/-- a start with an error below the tolerances is recorded in the first step and kept -/
theorem core_start (p : IKParams d) (ev : Eval N d) (q0 : Fin N → Fin R → QRow d) (i : Fin N) (r : Fin R)
    (hpos : Fl.lt (posErr ev i (q0 i r)) (.fin p.posTol)) (hrot : Fl.lt (rotErr ev i (q0 i r)) (.fin p.rotTol)) :
    (p.solveCore ev q0).sol.conv i r = true ∧ (p.solveCore ev q0).sol.solutions i r = q0 i r := by
  obtain ⟨k, -, hk, -⟩ := loop_spec p ev p.maxIter ⟨q0, Sol.init N R d, none⟩
  have hup : ∀ (s : Sol N R d), s.conv = (Sol.init N R d).conv →
      (s.update p.posTol p.rotTol q0 (fun i r => (ev i (q0 i r)).2) p.esAny).conv i r = true ∧
      (s.update p.posTol p.rotTol q0 (fun i r => (ev i (q0 i r)).2) p.esAny).solutions i r = q0 i r := by
    intro s hs
    obtain ⟨-, h1, -, -, -, -, h2, -⟩ := update_fields p.posTol p.rotTol s q0 (fun i r => (ev i (q0 i r)).2) p.esAny none
    unfold posErr at hpos
    unfold rotErr at hrot
    constructor
    · rw [h2]; simp [hpos, hrot]
    · rw [h1, hs]; simp [Sol.init]
  unfold IKParams.solveCore
  dsimp only
  rw [hk]
  cases k with
  | zero => exact hup _ rfl
  | succ k =>
    rw [Function.iterate_succ_apply]
    set st0 : IKState N R d := ⟨q0, Sol.init N R d, none⟩ with hst0
    have h0 : (p.body ev st0).sol.conv i r = true ∧ (p.body ev st0).sol.solutions i r = q0 i r := by
      have := hup { (Sol.init N R d) with iterations := (Sol.init N R d).iterations + 1 } rfl
      rcases body_sol p ev st0 with e | ⟨m, e⟩ <;> rw [e] <;> exact this
    obtain ⟨a, b⟩ := conv_kept_iterate p ev k _ i r h0.1
    have := (run_sticky p.posTol p.rotTol ((p.body ev)^[k] (p.body ev st0)).sol
      (.update ((p.body ev)^[k] (p.body ev st0)).q (fun i r => (ev i (((p.body ev)^[k] (p.body ev st0)).q i r)).2) p.esAny none)
      (by simp) i r).1 a
    exact ⟨this.1, this.2.1.trans (b.trans h0.2)⟩

/-- C87: without limit enforcement, a start within the tolerances of its target is returned as it is, as converged,
whatever the budget, the learning rate, the line search and the stopping rules are. -/
theorem C87_start_kept (root rf fe : Frame) (rootName : Name) (path : List Frame) (h : WF root) (hr : RigidTree root)
    (hs : StartsAt root rf rootName) (hp : IsPath rf path) (hl : path.getLast? = some fe)
    (hd : d = (pathJoints path).length) (targets : Fin N → M4) (ht : ∀ i, IsRigid (targets i))
    (s : SerialChain) (hse : SerialChain.init root fe.name rootName = .ok s) (ev : Eval N d) (hev : ReportsError s targets ev)
    (p : IKParams d) (hno : p.enforce = false ∨ ∀ j, (p.low j).isFinite = false ∧ (p.high j).isFinite = false)
    (q0 : Fin N → Fin R → QRow d) (i : Fin N) (r : Fin R) (x : Fin d → ℝ) (hx : q0 i r = fun j => .fin (x j))
    (T : Fin 1 → M4) (hT : s.fkEnd (.tensor 1 (List.ofFn fun j _ => x j)) = .ok ⟨1, T⟩)
    (hpos : vlen (posPart (targets i) - posPart (T 0)) < p.posTol)
    (hrot : rotAngle (rotPart (targets i) * (rotPart (T 0))ᵀ) * (1 + 1e-13) < p.rotTol) :
    (p.solve ev q0).conv i r = true ∧ (p.solve ev q0).solutions i r = fun j => .fin (x j) := by
  obtain ⟨T', ea, e1, -, e2, e3, e4⟩ := start_err h hr hs hp hl hd ht hse hev i x
  rw [hT] at e1
  cases e1
  have hc : (p.enforce && p.hasFiniteLimits) = false := by
    rcases hno with h | h
    · simp [h]
    · simp [IKParams.hasFiniteLimits, h]
  have := core_start p ev q0 i r (by rw [hx, e2]; exact hpos) (by rw [hx, e3]; exact lt_of_le_of_lt e4 hrot)
  unfold IKParams.solve
  rw [hc, ← hx]
  exact this

theorem clampRow_id {p : IKParams d} {lo hi x : Fin d → ℝ} (hlo : ∀ j, p.low j = .fin (lo j)) (hhi : ∀ j, p.high j = .fin (hi j))
    (hx : ∀ j, lo j ≤ x j ∧ x j ≤ hi j) : p.clampRow (fun j => .fin (x j)) = fun j => .fin (x j) := by
  funext j
  obtain ⟨a, b⟩ := hx j
  simp only [IKParams.clampRow, hlo, hhi]
  have h1 : Fl.max (.fin (x j)) (.fin (lo j)) = .fin (x j) := by simp [Fl.max, Fl.lt, not_lt.2 a]
  rw [Fl.clamp, h1]
  simp [Fl.min, Fl.lt, not_lt.2 b]

/-- the damped least squares step is zero at the target -/
theorem step_zero {m : M4} {tpos : V3} {tq : Quat} {J : Matrix (Fin 6) (Fin d) ℝ} {reg lm : ℝ} {w : Option (Fin 6 → ℝ)}
    (h : deltaPose m tpos tq = 0) : (ikStepKernel m tpos tq J reg lm w).1 = 0 := by
  have : weightDx w (0 : Fin 6 → ℝ) = 0 := by
    funext i; rw [weightDx_apply]; simp
  simp [ikStepKernel, h, this]

/-- C87: with limit enforcement, a start within the joint limits whose pose is the target gives a converged retry within
the limits whose pose is the target; its values differ from the start by full turns of revolute joints only, and not at all
for joints with a range of less than a full turn. -/
theorem C87_exact_start (root rf fe : Frame) (rootName : Name) (path : List Frame) (h : WF root) (hr : RigidTree root)
    (hs : StartsAt root rf rootName) (hp : IsPath rf path) (hl : path.getLast? = some fe)
    (hd : d = (pathJoints path).length) (targets : Fin N → M4) (ht : ∀ i, IsRigid (targets i))
    (s : SerialChain) (hse : SerialChain.init root fe.name rootName = .ok s) (ev : Eval N d) (reg lm : ℝ)
    (w : Option (Fin 6 → ℝ)) (hev : Realises s targets reg lm w ev)
    (p : IKParams d) (lo hi : Fin d → ℝ) (hlo : ∀ j, p.low j = .fin (lo j)) (hhi : ∀ j, p.high j = .fin (hi j))
    (hrev : ∀ (j : Fin d) (jt : Joint), (pathJoints path)[j.val]? = some jt → p.revolute j = decide (jt.jtype = .revolute))
    (hpt : 0 < p.posTol) (hrt : 0 < p.rotTol)
    (q0 : Fin N → Fin R → QRow d) (i : Fin N) (r : Fin R) (x : Fin d → ℝ) (hx : q0 i r = fun j => .fin (x j))
    (hxl : ∀ j, lo j ≤ x j ∧ x j ≤ hi j)
    (T : Fin 1 → M4) (hT : s.fkEnd (.tensor 1 (List.ofFn fun j _ => x j)) = .ok ⟨1, T⟩) (hTt : T 0 = targets i) :
    ∃ y : Fin d → ℝ, (p.solve ev q0).conv i r = true ∧ (p.solve ev q0).solutions i r = (fun j => .fin (y j)) ∧
      (∀ j, lo j ≤ y j ∧ y j ≤ hi j) ∧ s.fkEnd (.tensor 1 (List.ofFn fun j _ => y j)) = .ok ⟨1, T⟩ ∧
      (∀ j, ∃ n : ℤ, y j = x j + n * (2 * Real.pi)) ∧
      ∀ j, p.revolute j = false ∨ hi j - lo j < 2 * Real.pi → y j = x j := by
  have hre := hev.reportsError
  -- a configuration reaching the target has no error
  have good : ∀ y : Fin d → ℝ, s.fkEnd (.tensor 1 (List.ofFn fun j _ => y j)) = .ok ⟨1, T⟩ →
      posErr ev i (fun j => .fin (y j)) = .fin 0 ∧ (∃ ea, rotErr ev i (fun j => .fin (y j)) = .fin ea ∧ ea ≤ 0) ∧
      (ev i (fun j => .fin (y j))).1 = fun _ => .fin 0 := by
    intro y hy
    obtain ⟨T', ea, e1, e5, e2, e3, e4⟩ := start_err h hr hs hp hl hd ht hse hre i y
    rw [hy] at e1
    cases e1
    have hz := (C58_zero_iff (T 0) (targets i) e5 (ht i)).2 hTt
    obtain ⟨J, m, f1, f2, f3⟩ := hev.finite i y
    have hm : m 0 = T 0 := by
      obtain ⟨rest, rfl⟩ := isPath_head hp
      have hws := serialRoot_wf (h.sub hs.1) hp
      obtain rfl := Except.ok.inj (hse.symm.trans (serialInit_ok h hs hp hl rfl))
      have hlen : (List.ofFn fun j (_ : Fin 1) => y j).length = (pathJoints (rf :: rest)).length := by rw [List.length_ofFn, hd]
      have h3 := jacobianTensor_ok hws (List.ofFn fun j (_ : Fin 1) => y j) hlen
      have hm := congrArg Prod.snd (Except.ok.inj (f1.symm.trans h3))
      rw [serial_fkEnd hws _ hlen] at hy
      simp only at hm
      injection hy with hy
      injection hy with _ hy
      rw [hm, ← eq_of_heq (heq_of_eq hy)]
    refine ⟨?_, ⟨ea, e3, ?_⟩, ?_⟩
    · rw [e2, hTt]; simp [vlen]
    · have hR : rotPart (targets i) * (rotPart (T 0))ᵀ = 1 := by rw [hTt]; exact (ht i).1.1.2
      have : rotAngle (1 : M3) = 0 := by
        rw [rotAngle, Matrix.trace_one]; norm_num
      rw [hR, this] at e4
      simpa using e4
    · rw [f3]
      dsimp only
      rw [hm, step_zero hz]
      rfl
  obtain ⟨c1, c2⟩ := core_start p ev q0 i r
    (by rw [hx, (good x hT).1]; exact hpt)
    (by obtain ⟨ea, e, e'⟩ := (good x hT).2.1; rw [hx, e]; exact lt_of_le_of_lt e' hrt)
  by_cases hen : (p.enforce && p.hasFiniteLimits) = true
  swap
  · refine ⟨x, ?_, ?_, hxl, hT, fun j => ⟨0, by simp⟩, fun _ _ => rfl⟩
    · unfold IKParams.solve; rw [if_neg hen]; exact c1
    · unfold IKParams.solve; rw [if_neg hen, ← hx]; exact c2
  obtain ⟨n, n1, n2, n3⟩ := C61_wrap p x lo hi hlo hhi
  set y : Fin d → ℝ := fun j => x j + n j * (2 * Real.pi) with hy
  have hpi := Real.pi_pos
  have hsmall : ∀ j, hi j - lo j < 2 * Real.pi → n j = 0 := by
    intro j hj
    by_cases hv : p.revolute j = true
    · have a := n3 j hv
      obtain ⟨b, c⟩ := hxl j
      rw [abs_le] at a
      have l1 : (n j : ℝ) < 1 := by
        by_contra hn; push Not at hn
        nlinarith [mul_le_mul_of_nonneg_right hn (by positivity : (0:ℝ) ≤ 2 * Real.pi)]
      have l2 : (-1 : ℝ) < n j := by
        by_contra hn; push Not at hn
        nlinarith [mul_le_mul_of_nonneg_right hn (by positivity : (0:ℝ) ≤ 2 * Real.pi)]
      have l1' : n j < 1 := by exact_mod_cast l1
      have l2' : -1 < n j := by exact_mod_cast l2
      omega
    · exact n2 j (by simpa using hv)
  have hyl : ∀ j, lo j ≤ y j ∧ y j ≤ hi j := by
    intro j
    by_cases hj : hi j - lo j < 2 * Real.pi
    · simp only [hy, hsmall j hj]; simpa using hxl j
    · by_cases hv : p.revolute j = true
      · have a := n3 j hv
        rw [abs_le] at a
        push Not at hj
        constructor <;> simp only [hy] <;> linarith [a.1, a.2]
      · simp only [hy, n2 j (by simpa using hv)]; simpa using hxl j
  have hyT : s.fkEnd (.tensor 1 (List.ofFn fun j _ => y j)) = .ok ⟨1, T⟩ := by
    obtain ⟨s', T', g1, g2, g3⟩ := C61_wrap_keeps_pose root rf fe rootName path h hs hp hl (B := 1)
      (List.ofFn fun j (_ : Fin 1) => x j) (by rw [List.length_ofFn, hd]) (List.ofFn fun j (_ : Fin 1) => n j) (by simp) (by
        intro k j hk hj b
        by_cases hkd : k < d
        · have := hrev ⟨k, hkd⟩ j hk
          have e := n2 ⟨k, hkd⟩ (by rw [this]; simp [hj])
          simp [List.getD, hkd, e]
        · simp [List.getD, hkd])
    obtain rfl := Except.ok.inj (hse.symm.trans g1)
    rw [hT] at g2
    cases g2
    rw [← g3]
    congr 2
    apply List.ext_getElem
    · simp
    · intro k k1 k2; simp [hy]
  have hstay : ∀ k, (p.refine ev i)^[k] (fun j => .fin (y j)) = fun j => .fin (y j) := by
    intro k
    induction k with
    | zero => rfl
    | succ k ih =>
      rw [Function.iterate_succ_apply', ih]
      unfold IKParams.refine
      rw [(good y hyT).2.2]
      have : stepRow p.lr (fun j => .fin (y j)) (fun _ => .fin 0) = fun j => .fin (y j) := by
        funext j; simp [stepRow, Fl.mulReal, Fl.add]
      rw [this, clampRow_id hlo hhi hyl]
  have hq : (p.refine ev i)^[p.nRefine] (p.clampRow (p.wrapRow ((p.solveCore ev q0).sol.solutions i r))) = fun j => .fin (y j) := by
    rw [c2, hx]
    have : p.wrapRow (fun j => .fin (x j)) = fun j => .fin (y j) := funext n1
    rw [this, clampRow_id hlo hhi hyl, hstay]
  refine ⟨y, ?_, ?_, hyl, hyT, fun j => ⟨n j, rfl⟩, ?_⟩
  · unfold IKParams.solve
    rw [if_pos hen]
    unfold IKParams.enforceLimits
    dsimp only
    rw [(update_fields _ _ _ _ _ _ _).2.2.2.2.2.2.1]
    simp only [hq]
    obtain ⟨g1, ⟨ea, g2, g3⟩, -⟩ := good y hyT
    unfold posErr at g1
    unfold rotErr at g2
    simp only [g1, g2]
    simp [Fl.lt, hpt, lt_of_le_of_lt g3 hrt]
  · unfold IKParams.solve
    rw [if_pos hen, enforce_solutions, hq]
  · intro j hj
    rcases hj with hj | hj
    · simp [hy, n2 j hj]
    · simp [hy, hsmall j hj]

/-- the hypotheses are met by every rigid chain: the target is the pose of some values within the limits `[-4, 3]` -/
example (root rf fe : Frame) (rootName : Name) (path : List Frame) (h : WF root) (hr : RigidTree root)
    (hs : StartsAt root rf rootName) (hp : IsPath rf path) (hl : path.getLast? = some fe)
    (x : Fin (pathJoints path).length → ℝ) (hx : ∀ j, -4 ≤ x j ∧ x j ≤ 3) (other : M4) (ho : IsRigid other) :
    ∃ (s : SerialChain) (T : Fin 1 → M4) (ev : Eval 2 (pathJoints path).length) (p : IKParams (pathJoints path).length)
      (y : Fin (pathJoints path).length → ℝ),
      SerialChain.init root fe.name rootName = .ok s ∧ Realises s ![other, T 0] 1e-9 0.1 none ev ∧ p.enforce = true ∧
      (p.solve ev (fun _ (_ : Fin 2) j => .fin (x j))).conv 1 0 = true ∧
      s.fkEnd (.tensor 1 (List.ofFn fun j _ => y j)) = .ok ⟨1, T⟩ := by
  obtain ⟨s, ev0, h1, h2⟩ := realises_exists root rf fe rootName path h hs hp hl rfl (N := 1) (fun _ => other) 1e-9 0.1 none
  obtain ⟨T, -, e1, e2, -⟩ := start_err h hr hs hp hl rfl (fun _ => ho) h1 h2.reportsError 0 x
  obtain ⟨s', ev, h1', h3⟩ := realises_exists root rf fe rootName path h hs hp hl rfl (N := 2) ![other, T 0] 1e-9 0.1 none
  obtain rfl := Except.ok.inj (h1.symm.trans h1')
  let p : IKParams (pathJoints path).length := ⟨fun _ => .fin (-4), fun _ => .fin 3,
    fun j => decide (((pathJoints path)[j.val]).jtype = .revolute), 1e-3, 1e-2, 50, 0.2, some {}, true, some .any, 2, true, 10, true⟩
  obtain ⟨y, f1, -, -, f2, -⟩ := C87_exact_start root rf fe rootName path h hr hs hp hl rfl ![other, T 0]
    (by intro i; fin_cases i; exacts [ho, e2]) s h1 ev 1e-9 0.1 none h3 p (fun _ => -4) (fun _ => 3) (fun _ => rfl) (fun _ => rfl)
    (by intro j jt hj; rw [List.getElem?_eq_getElem (by exact j.2)] at hj; cases hj; rfl)
    (by norm_num [p]) (by norm_num [p]) (fun _ (_ : Fin 2) j => .fin (x j)) 1 0 x rfl hx T e1 rfl
  exact ⟨s, T, ev, p, y, h1, h3, rfl, f1, f2⟩

end PK
