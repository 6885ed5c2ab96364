import Verif.Lemmas.IeeeIK
import Verif.Props.Ieee
import Verif.Props.FloatIK
import Verif.Props.BatchIK

/-!
# C134: infinities and NaN in inverse kinematics
-/

namespace PK
open Spec Matrix

/-! ## the Jacobian and the pose of the end -/

theorem pathI_spoiled (m : Ieee) (val : Joint → Fl) {p : List Frame} {g : Frame} (hg : g ∈ p) (hm : Moving g.joint)
    (hq : (val g.joint).isFinite = false) : Spoiled (pathI m val p) := by
  have hloc : Spoiled (localI m g (val g.joint)) := spoiled_mul_right m (motionI_strict m hm hq)
  have keep : ∀ (q : List Frame) (X : FM4), Spoiled X →
      Spoiled (q.foldl (fun T g => m.mul T (localI m g (val g.joint))) X) := by
    intro q
    induction q with
    | nil => intro X h; exact h
    | cons g q ih => intro X h; exact ih _ (spoiled_mul_left m h)
  have reach : ∀ (q : List Frame) (X : FM4), g ∈ q →
      Spoiled (q.foldl (fun T g => m.mul T (localI m g (val g.joint))) X) := by
    intro q
    induction q with
    | nil => intro X h; cases h
    | cons g' q ih =>
      intro X h
      rcases List.mem_cons.1 h with rfl | h
      · exact keep q _ (spoiled_mul_right m ⟨0, hloc 0⟩)
      · exact ih _ h
  cases p with
  | nil => cases hg
  | cons f p =>
    rcases List.mem_cons.1 hg with rfl | hg
    · exact keep p _ hloc
    · exact reach p _ hg

theorem poseI_posOf (m : Ieee) {sr f : Frame} (h : WF sr) {B : ℕ} (th : List (Fin B → Fl)) {p : List Frame}
    (hp : IsPath sr p) (hl : p.getLast? = some f) (b : Fin B) :
    poseI m sr th (posOf sr f.name) b = pathI m (colI sr th b) p := by
  obtain ⟨j, e, pi, h1, h2, h3, h4⟩ := isPath_ancestors sr hp
  rw [h4] at hl
  simp only [Option.some.injEq] at hl
  subst hl
  rw [h.posOf_eq h1]
  exact poseI_path m sr th h2 h3 b

section
variable (m : Ieee) {rf : Frame} {rest : List Frame} (h : WF (serialRoot rf rest)) {B : ℕ}
  (th : List (Fin B → Fl)) (hth : th.length = (pathJoints (rf :: rest)).length)
include h hth

/-- the pose of the end -/
noncomputable def teeI (m : Ieee) (rf : Frame) (rest : List Frame) {B : ℕ} (th : List (Fin B → Fl)) (b : Fin B) : FM4 :=
  pathI m (colI (serialRoot rf rest) th b) (serialRoot rf rest :: serialNest rest)

theorem jacobianTensorI_ok : (serialOf rf rest).jacobianTensorI m th = .ok
    ((dofFrames rf rest).map (fun f b => jcolI m (teeI m rf rest th b)
        (poseI m (serialRoot rf rest) th (posOf (serialRoot rf rest) f.name) b) f.joint.axis (f.joint.jtype = .revolute)),
      teeI m rf rest th) := by
  have hth' := hth
  rw [pathJoints_length] at hth'
  have hfk : (serialOf rf rest).chain.fkTensorI m (Chain.staticI m (serialOf rf rest).chain.root) th =
      .ok ((List.range (visit (serialRoot rf rest)).length).map (poseI m (serialRoot rf rest) th)) := by
    apply fkTensorI_ok m h.joints_nodup
    · intro hne; rw [hth']; exact List.length_pos_iff.2 hne
    · simp [broadcastCols, hth']
  obtain ⟨T, hT⟩ : ∃ T, T = (List.range (visit (serialRoot rf rest)).length).map (poseI m (serialRoot rf rest) th) := ⟨_, rfl⟩
  have hat : ∀ f ∈ preorder (serialRoot rf rest), tensorAtI T (posOf (serialRoot rf rest) f.name) =
      .ok (poseI m (serialRoot rf rest) th (posOf (serialRoot rf rest) f.name)) := by
    intro f hf
    obtain ⟨j, e, he, rfl⟩ := exists_pos hf
    have hj : j < (visit (serialRoot rf rest)).length := (List.getElem?_eq_some_iff.1 he).1
    rw [h.posOf_eq he, hT, tensorAtI, List.getElem?_map, List.getElem?_range hj]
    rfl
  obtain ⟨fl, hfl, hfn, hfm⟩ := exists_last rf rest
  have hee : poseI m (serialRoot rf rest) th (posOf (serialRoot rf rest) (lastName rf rest)) = teeI m rf rest th := by
    funext b
    rw [← hfn, poseI_posOf m h th (serial_path rf rest) hfl]
    rfl
  have hax : (serialOf rf rest).dofAxes = (dofFrames rf rest).map fun f => f.joint.axis := rfl
  have hty : (serialOf rf rest).dofTypes = (dofFrames rf rest).map fun f => if f.joint.jtype = .revolute then 1 else 2 := rfl
  unfold SerialChain.jacobianTensorI
  simp only [hfk, ok_bind]
  rw [← hT]
  have he : tensorAtI T (serialOf rf rest).eefIdx = .ok (teeI m rf rest th) := by
    have := hat fl hfm
    rw [hfn, hee] at this
    exact this
  have htd : (serialOf rf rest).dofFrameIndices.mapM (tensorAtI T) =
      .ok ((dofFrames rf rest).map fun f => poseI m (serialRoot rf rest) th (posOf (serialRoot rf rest) f.name)) := by
    apply mapM_congr_ok
    show List.Forall₂ _ ((dofFrames rf rest).map fun f => posOf (serialRoot rf rest) f.name) _
    rw [List.forall₂_map_left_iff, List.forall₂_map_right_iff, List.forall₂_same]
    intro f hf
    exact hat f (dofFrames_mem hf).1
  rw [htd, he]
  simp only [ok_bind, pure_ok]
  rw [hax, hty, zipWith_maps]
  congr 3
  funext f b
  by_cases ht : f.joint.jtype = .revolute <;> simp [jcolI, ht]

end

/-- the joints of a serial chain: joint number `j` is on the path -/
theorem serial_joint {rf : Frame} {rest : List Frame} (h : WF (serialRoot rf rest)) {d : ℕ}
    (hd : d = (pathJoints (rf :: rest)).length) (j : Fin d) : ∃ f ∈ dofFrames rf rest, Moving f.joint ∧
      f ∈ serialRoot rf rest :: serialNest rest ∧ (dofFrames rf rest)[j.val]? = some f ∧
      ∀ q : QRow d, colI (serialRoot rf rest) (List.ofFn fun j (_ : Fin 1) => q j) 0 f.joint = q j := by
  have hlen : j.val < (dofFrames rf rest).length := by
    have := congrArg List.length (dofFrames_joints rf rest)
    rw [List.length_map] at this
    rw [this, ← pathJoints_length, ← hd]
    exact j.2
  have hk : (dofFrames rf rest)[j.val]? = some (dofFrames rf rest)[j.val] := List.getElem?_eq_getElem hlen
  obtain ⟨hfm, mf⟩ := dofFrames_mem (List.mem_of_getElem? hk)
  have hc : column (serialRoot rf rest) (dofFrames rf rest)[j.val].joint = j := by
    apply (C07_columns _ h).2.2
    rw [← dofFrames_joints, List.getElem?_map, hk]; rfl
  refine ⟨_, List.mem_of_getElem? hk, mf, serialRoot_preorder rf rest ▸ hfm, hk, fun q => ?_⟩
  simp [colI, hc, List.getD]

/-! ## the error -/

/-- an infinity or NaN in the first three rows of a 4x4 matrix -/
def PoseBad (T : FM4) : Prop := ∃ (i : Fin 3) (j : Fin 4), (T i.castSucc j).isFinite = false

theorem Spoiled.poseBad {T : FM4} (h : Spoiled T) : PoseBad T := ⟨0, h 0⟩

theorem deltaPoseI_visible (m : IeeeRot) {M T : FM4} (h : PoseBad M ∨ PoseBad T) : ∃ a, (deltaPoseI m M T a).isFinite = false := by
  have : ∃ (i : Fin 3) (j : Fin 4), (M i.castSucc j).isFinite = false ∨ (T i.castSucc j).isFinite = false := by
    rcases h with ⟨i, j, h⟩ | ⟨i, j, h⟩
    · exact ⟨i, j, .inl h⟩
    · exact ⟨i, j, .inr h⟩
  obtain ⟨i, j, h⟩ := this
  rcases deltaPoseI_bad m h with ⟨k, hk⟩ | hk
  · exact ⟨_, hk⟩
  · exact ⟨_, hk 0⟩

variable {N R d : ℕ}

/-- `ev` is what the code computes on this chain for these targets, as far as the errors go; the proposed steps may be anything
(`torch.linalg.solve`, `torch.linalg.svd`). -/
structure ReportsErrorI (m : IeeeRot) (s : SerialChain) (targets : Fin N → FM4) (ev : Eval N d) : Prop where
  error : ∀ i (q : QRow d), ∃ J T, s.jacobianTensorI m.toIeee (B := 1) (List.ofFn fun j _ => q j) = .ok (J, T) ∧
    (ev i q).2 = deltaPoseI m (T 0) (targets i)

/-- **C134**: whatever joint values (infinities and NaN included) and targets are given, the Jacobian and the pose error are
computed without exception, and an infinity or NaN among the joint values or in the first three rows of the target shows in the
pose error. -/
theorem C134_error_visible (m : IeeeRot) (root rf fe : Frame) (rootName : Name) (path : List Frame) (h : WF root)
    (hs : StartsAt root rf rootName) (hp : IsPath rf path) (hl : path.getLast? = some fe) (hd : d = (pathJoints path).length)
    (q : QRow d) :
    ∃ s J T, SerialChain.init root fe.name rootName = .ok s ∧
      s.jacobianTensorI m.toIeee (B := 1) (List.ofFn fun j _ => q j) = .ok (J, T) ∧ J.length = d ∧
      ∀ target, PoseBad target ∨ (∃ j, (q j).isFinite = false) → ∃ a, (deltaPoseI m (T 0) target a).isFinite = false := by
  obtain ⟨rest, rfl⟩ := isPath_head hp
  have hws := serialRoot_wf (h.sub hs.1) hp
  have hlen : (List.ofFn fun j (_ : Fin 1) => q j).length = (pathJoints (rf :: rest)).length := by rw [List.length_ofFn, hd]
  refine ⟨_, _, _, serialInit_ok h hs hp hl rfl, jacobianTensorI_ok m.toIeee hws _ hlen, ?_, fun target hb => ?_⟩
  · rw [List.length_map, dofFrames_length, hd]
  · apply deltaPoseI_visible
    rcases hb with hb | ⟨j, hj⟩
    · exact .inr hb
    · left
      obtain ⟨f, -, mf, hfp, -, hc⟩ := serial_joint hws hd j
      exact (pathI_spoiled m.toIeee _ hfp mf (by rw [hc q]; exact hj)).poseBad

/-- an evaluation as the code makes it exists, whatever the proposed steps are -/
theorem reportsErrorI_exists (m : IeeeRot) (root rf fe : Frame) (rootName : Name) (path : List Frame) (h : WF root)
    (hs : StartsAt root rf rootName) (hp : IsPath rf path) (hl : path.getLast? = some fe) (hd : d = (pathJoints path).length)
    (targets : Fin N → FM4) (step : Fin N → QRow d → QRow d) :
    ∃ (s : SerialChain) (ev : Eval N d), SerialChain.init root fe.name rootName = .ok s ∧
      ReportsErrorI m s targets ev ∧ ∀ i q, (ev i q).1 = step i q := by
  obtain ⟨rest, rfl⟩ := isPath_head hp
  have hws := serialRoot_wf (h.sub hs.1) hp
  have hlen : ∀ q : QRow d, (List.ofFn fun j (_ : Fin 1) => q j).length = (pathJoints (rf :: rest)).length := by
    intro q; rw [List.length_ofFn, hd]
  exact ⟨serialOf rf rest, fun i q => (step i q, deltaPoseI m (teeI m.toIeee rf rest (List.ofFn fun j (_ : Fin 1) => q j) 0) (targets i)),
    serialInit_ok h hs hp hl rfl, ⟨fun i q => ⟨_, _, jacobianTensorI_ok m.toIeee hws _ (hlen q), rfl⟩⟩, fun i q => rfl⟩

theorem error_bad (m : IeeeRot) {root rf fe : Frame} {rootName : Name} {path : List Frame} (h : WF root)
    (hs : StartsAt root rf rootName) (hp : IsPath rf path) (hl : path.getLast? = some fe) (hd : d = (pathJoints path).length)
    {s : SerialChain} (hse : SerialChain.init root fe.name rootName = .ok s) {targets : Fin N → FM4} {ev : Eval N d}
    (hev : ReportsErrorI m s targets ev) (i : Fin N) (q : QRow d) (hb : PoseBad (targets i) ∨ ∃ j, (q j).isFinite = false) :
    ∃ a, ((ev i q).2 a).isFinite = false := by
  obtain ⟨s', J, T, h1, h2, -, h3⟩ := C134_error_visible m root rf fe rootName path h hs hp hl hd q
  obtain rfl := Except.ok.inj (hse.symm.trans h1)
  obtain ⟨J', T', h4, h5⟩ := hev.error i q
  obtain ⟨rfl, rfl⟩ := Prod.mk.inj (Except.ok.inj (h2.symm.trans h4))
  rw [h5]
  exact h3 _ hb

/-- what the theorems use of the arithmetic of `solve`: a norm below a number has finite arguments, and NaN stays -/
structure SolverArith.Strict (ar : SolverArith) : Prop where
  finite : ∀ (l : List Fl) (t : ℝ), Fl.lt (ar.norm l) (.fin t) → ∀ x ∈ l, x.isFinite = true
  nan : ∀ x, ar.add .nan x = .nan

theorem solverI_strict (m : IeeeRot) : (solverI m).Strict where
  finite l t h := by
    unfold solverI Fl.norm at h
    dsimp only at h
    split_ifs at h with c1 c2
    · exact absurd h (fun h => h)
    · exact c2
    · exact absurd h (fun h => h)
  nan x := by cases x <;> rfl

theorem exact_strict : SolverArith.exact.Strict where
  finite l t h := by
    unfold SolverArith.exact Fl.norm at h
    dsimp only at h
    split_ifs at h with c1 c2
    · exact absurd h (fun h => h)
    · exact c2
    · exact absurd h (fun h => h)
  nan x := by cases x <;> rfl

/-- **C134**: a retry reported as converged has finite joint values and its target has no infinity or NaN in its first three
rows. -/
theorem C134_converged (m : IeeeRot) (root rf fe : Frame) (rootName : Name) (path : List Frame) (h : WF root)
    (hs : StartsAt root rf rootName) (hp : IsPath rf path) (hl : path.getLast? = some fe) (hd : d = (pathJoints path).length)
    (s : SerialChain) (hse : SerialChain.init root fe.name rootName = .ok s) (targets : Fin N → FM4) (ev : Eval N d)
    (hev : ReportsErrorI m s targets ev) (ar : SolverArith)
    (har : ar.Strict) (p : IKParams d) (q0 : Fin N → Fin R → QRow d) (i : Fin N) (r : Fin R)
    (hc : (p.solveWith ar ev q0).conv i r = true) :
    (∀ (a : Fin 3) (b : Fin 4), (targets i a.castSucc b).isFinite = true) ∧
      ∀ j, ((p.solveWith ar ev q0).solutions i r j).isFinite = true := by
  obtain ⟨b1, b2, b3⟩ := record_solve ar p ev q0 i r
  obtain ⟨f1, f2⟩ := b3 hc
  rw [b1] at f1
  rw [b2] at f2
  have g1 := har.finite _ _ f1
  have g2 := har.finite _ _ f2
  have hall : ¬ ∃ a, ((ev i ((p.solveWith ar ev q0).solutions i r)).2 a).isFinite = false := by
    rintro ⟨a, ha⟩
    simp only [List.mem_cons, List.not_mem_nil, or_false, forall_eq_or_imp, forall_eq] at g1 g2
    obtain ⟨c0, c1, c2⟩ := g1
    obtain ⟨c3, c4, c5⟩ := g2
    fin_cases a <;> simp_all
  refine ⟨fun a b => ?_, fun j => ?_⟩
  · by_contra hn
    exact hall (error_bad m h hs hp hl hd hse hev i _ (.inl ⟨a, b, by simpa using hn⟩))
  · by_contra hn
    exact hall (error_bad m h hs hp hl hd hse hev i _ (.inr ⟨j, by simpa using hn⟩))

/-! ## NaN among the starting values -/

open Classical in
theorem check_false {ar : SolverArith} (har : ar.Strict) {e : Fin 6 → Fl} (h : ∃ a, (e a).isFinite = false) (pt rt : ℝ) :
    (decide (Fl.lt (ar.norm [e 0, e 1, e 2]) (.fin pt)) && decide (Fl.lt (ar.norm [e 3, e 4, e 5]) (.fin rt))) = false := by
  by_contra hn
  rw [Bool.not_eq_false, Bool.and_eq_true, decide_eq_true_eq, decide_eq_true_eq] at hn
  have g1 := har.finite _ _ hn.1
  have g2 := har.finite _ _ hn.2
  simp only [List.mem_cons, List.not_mem_nil, or_false, forall_eq_or_imp, forall_eq] at g1 g2
  obtain ⟨c0, c1, c2⟩ := g1
  obtain ⟨c3, c4, c5⟩ := g2
  obtain ⟨a, ha⟩ := h
  fin_cases a <;> simp_all

/-- **C134**: a joint value that is NaN at the start of a retry is NaN in its solution, and the retry is not reported as
converged. -/
theorem C134_nan_start (m : IeeeRot) (root rf fe : Frame) (rootName : Name) (path : List Frame) (h : WF root)
    (hs : StartsAt root rf rootName) (hp : IsPath rf path) (hl : path.getLast? = some fe) (hd : d = (pathJoints path).length)
    (s : SerialChain) (hse : SerialChain.init root fe.name rootName = .ok s) (targets : Fin N → FM4) (ev : Eval N d)
    (hev : ReportsErrorI m s targets ev) (ar : SolverArith) (har : ar.Strict) (p : IKParams d) (q0 : Fin N → Fin R → QRow d)
    (i : Fin N) (r : Fin R) (j : Fin d) (hq : q0 i r j = .nan) :
    (p.solveWith ar ev q0).solutions i r j = .nan ∧ (p.solveWith ar ev q0).conv i r = false := by
  have bad : ∀ q : QRow d, q j = .nan → ∃ a, ((ev i q).2 a).isFinite = false := fun q hq =>
    error_bad m h hs hp hl hd hse hev i q (.inr ⟨j, by rw [hq]; rfl⟩)
  have upd : ∀ (t : Sol N R d) (q : Fin N → Fin R → QRow d) (u : Bool), q i r j = .nan → t.conv i r = false →
      (t.updateWith ar p.posTol p.rotTol q (fun i r => (ev i (q i r)).2) u).conv i r = false ∧
      (t.updateWith ar p.posTol p.rotTol q (fun i r => (ev i (q i r)).2) u).solutions i r j = .nan := by
    intro t q u h1 h2
    obtain ⟨f1, -, -, f4⟩ := updateWith_fields ar p.posTol p.rotTol t q (fun i r => (ev i (q i r)).2) u
    rw [f1, f4]
    dsimp only
    rw [h2, check_false har (bad _ h1)]
    exact ⟨rfl, h1⟩
  have clamp : ∀ q : QRow d, q j = .nan → p.clampRow q j = .nan := by
    intro q hq
    rw [IKParams.clampRow, hq, Fl.clamp_nan]
  have step : ∀ (lr : ℝ) (q dq : QRow d), q j = .nan → stepRowWith ar lr q dq j = .nan := by
    intro lr q dq hq
    rw [stepRowWith, hq, har.nan]
  have body : ∀ st : IKState N R d, st.q i r j = .nan → st.sol.conv i r = false →
      (p.bodyWith ar ev st).q i r j = .nan ∧ (p.bodyWith ar ev st).sol.conv i r = false := by
    intro st h1 h2
    refine ⟨?_, ?_⟩
    · unfold IKParams.bodyWith
      dsimp only
      split_ifs
      · exact clamp _ (step _ _ _ h1)
      · exact step _ _ _ h1
    · have hw : (p.bodyWith ar ev st).sol = _ ∨ ∃ m, (p.bodyWith ar ev st).sol = _ := watch_solutions p _ _ _
      have := (upd { st.sol with iterations := st.sol.iterations + 1 } st.q p.esAny h1 h2).1
      rcases hw with e | ⟨m, e⟩ <;> rw [e]
      · exact this
      · exact this
  have loop : ∀ (k : ℕ) (st : IKState N R d), st.q i r j = .nan → st.sol.conv i r = false →
      (p.loopWith ar ev k st).q i r j = .nan ∧ (p.loopWith ar ev k st).sol.conv i r = false := by
    intro k
    induction k with
    | zero => exact fun st h1 h2 => ⟨h1, h2⟩
    | succ k ih =>
      intro st h1 h2
      rw [IKParams.loopWith]
      split_ifs
      · exact ih _ (body st h1 h2).1 (body st h1 h2).2
      · exact ⟨h1, h2⟩
  obtain ⟨l1, l2⟩ := loop p.maxIter ⟨q0, Sol.init N R d, none⟩ hq rfl
  have core : (p.solveCoreWith ar ev q0).sol.conv i r = false ∧ (p.solveCoreWith ar ev q0).sol.solutions i r j = .nan :=
    upd _ _ _ l1 l2
  unfold IKParams.solveWith
  dsimp only
  split_ifs
  · have wrap : p.wrapRowWith ar ((p.solveCoreWith ar ev q0).sol.solutions i r) j = .nan := by
      unfold IKParams.wrapRowWith
      dsimp only
      rw [core.2, har.nan, ite_self]
    have ref : ∀ (k : ℕ) (q : QRow d), q j = .nan → (p.refineWith ar ev i)^[k] q j = .nan := by
      intro k
      induction k with
      | zero => exact fun q hq => hq
      | succ k ih =>
        intro q hq
        rw [Function.iterate_succ_apply]
        exact ih _ (clamp _ (step _ _ _ hq))
    unfold IKParams.enforceLimitsWith
    exact (upd { (p.solveCoreWith ar ev q0).sol with
      conv := fun _ _ => false, convAny := fun _ => false, convPos := fun _ _ => false, convRot := fun _ _ => false }
      (fun i r => (p.refineWith ar ev i)^[p.nRefine] (p.clampRow (p.wrapRowWith ar ((p.solveCoreWith ar ev q0).sol.solutions i r))))
      false (ref _ _ (clamp _ wrap)) rfl).symm
  · exact core.symm

/-! ## The other problems of the batch -/

theorem updateWith_only (ar : SolverArith) (pt rt : ℝ) (s : Sol N R d) (q : Fin N → Fin R → QRow d) (err : Fin N → Fin R → Fin 6 → Fl)
    (u : Bool) (i : Fin N) :
    (s.updateWith ar pt rt q err u).only i = (s.only i).updateWith ar pt rt (fun _ => q i) (fun _ => err i) u := by
  unfold Sol.updateWith
  cases u <;> rfl

theorem bodyWith_only (ar : SolverArith) (p : IKParams d) (hls : p.lineSearch = none) (ev : Eval N d) (st : IKState N R d) (i : Fin N) :
    (p.bodyWith ar ev st).only i = p.bodyWith ar (fun _ => ev i) (st.only i) := by
  have hsol := updateWith_only ar p.posTol p.rotTol { st.sol with iterations := st.sol.iterations + 1 } st.q
    (fun i r => (ev i (st.q i r)).2) p.esAny i
  have hrates : ∀ {M : ℕ} (ev : Eval M d) (q : Fin M → Fin R → QRow d) out rem, p.ratesWith ar ev q out rem = fun _ _ => p.lr := by
    intro M ev q out rem
    unfold IKParams.ratesWith; rw [hls]
  have hwatch : ∀ (s : Sol N R d) (e : Fin N → Fin R → Fl),
      ((p.watch st.progress e s).2.only i = (p.watch (st.only i).progress (fun _ => e i) (s.only i)).2) ∧
      ((p.watch st.progress e s).1.map fun pr => (fun _ : Fin 1 => pr.1 i, fun _ : Fin 1 => pr.2 i)) =
        (p.watch (st.only i).progress (fun _ => e i) (s.only i)).1 := by
    intro s e
    unfold IKParams.watch
    cases p.noImp with
    | none => exact ⟨rfl, rfl⟩
    | some m =>
      simp only [IKState.only]
      cases st.progress with
      | none => exact ⟨rfl, rfl⟩
      | some pr =>
        simp only [progressStep, Option.map_some]
        refine ⟨?_, trivial⟩
        simp only [Sol.keep, Sol.only]
        congr 1
        funext j
        congr 1
        exact congrFun (keep_only m _ i) j
  obtain ⟨w1, w2⟩ := hwatch ({ st.sol with iterations := st.sol.iterations + 1 }.updateWith ar p.posTol p.rotTol st.q
    (fun i r => (ev i (st.q i r)).2) p.esAny) (fun i r => errNormWith ar (ev i (st.q i r)).2)
  rw [hsol] at w1 w2
  unfold IKParams.bodyWith
  simp only [hrates]
  unfold IKState.only
  simp only
  refine congr (congr (congrArg IKState.mk ?_) ?_) ?_
  · split_ifs <;> rfl
  · exact w1
  · exact w2

theorem iterateWith_only (ar : SolverArith) (p : IKParams d) (hls : p.lineSearch = none) (ev : Eval N d) (i : Fin N) (k : ℕ)
    (st : IKState N R d) :
    ((p.bodyWith ar ev)^[k] st).only i = (p.bodyWith ar (fun _ : Fin 1 => ev i))^[k] (st.only i) := by
  induction k generalizing st with
  | zero => rfl
  | succ k ih => rw [Function.iterate_succ_apply, ih, bodyWith_only ar p hls, Function.iterate_succ_apply]

theorem loopWith_spec (ar : SolverArith) (p : IKParams d) (ev : Eval N d) (n : ℕ) (st : IKState N R d) :
    ∃ k ≤ n, p.loopWith ar ev n st = (p.bodyWith ar ev)^[k] st ∧
      (k < n → ∀ i, (p.loopWith ar ev n st).sol.remaining i = false) ∧
      (∀ j < k, ∃ i, ((p.bodyWith ar ev)^[j] st).sol.remaining i = true) := by
  induction n generalizing st with
  | zero => exact ⟨0, le_rfl, rfl, fun h => absurd h (lt_irrefl _), fun j h => absurd h (Nat.not_lt_zero _)⟩
  | succ n ih =>
    rw [IKParams.loopWith]
    split_ifs with h
    · obtain ⟨k, k1, k2, k3, k4⟩ := ih (p.bodyWith ar ev st)
      refine ⟨k + 1, by omega, k2, fun h => k3 (by omega), fun j hj => ?_⟩
      cases j with
      | zero => exact h
      | succ j => exact k4 j (by omega)
    · refine ⟨0, by omega, rfl, fun _ i => ?_, fun j h => absurd h (Nat.not_lt_zero _)⟩
      by_contra hc
      exact h ⟨i, Bool.not_eq_false _ ▸ hc⟩

theorem updateWith_kept (ar : SolverArith) (pt rt : ℝ) (s : Sol N R d) (q : Fin N → Fin R → QRow d) (err : Fin N → Fin R → Fin 6 → Fl)
    (u : Bool) (i : Fin N) (r : Fin R) (hc : s.conv i r = true) :
    (s.updateWith ar pt rt q err u).conv i r = true ∧ (s.updateWith ar pt rt q err u).solutions i r = s.solutions i r := by
  obtain ⟨f1, -, -, f4⟩ := updateWith_fields ar pt rt s q err u
  rw [f1, f4]
  dsimp only
  rw [hc]
  exact ⟨rfl, if_pos rfl⟩

theorem bodyWith_conv (ar : SolverArith) (p : IKParams d) (ev : Eval N d) (st : IKState N R d) :
    (p.bodyWith ar ev st).sol.conv = (st.sol.updateWith ar p.posTol p.rotTol st.q (fun i r => (ev i (st.q i r)).2) p.esAny).conv ∧
    (p.bodyWith ar ev st).sol.solutions =
      (st.sol.updateWith ar p.posTol p.rotTol st.q (fun i r => (ev i (st.q i r)).2) p.esAny).solutions := by
  have hw : (p.bodyWith ar ev st).sol = _ ∨ ∃ m, (p.bodyWith ar ev st).sol = _ := watch_solutions p _ _ _
  obtain ⟨f1, -, -, f4⟩ := updateWith_fields ar p.posTol p.rotTol { st.sol with iterations := st.sol.iterations + 1 } st.q
    (fun i r => (ev i (st.q i r)).2) p.esAny
  obtain ⟨g1, -, -, g4⟩ := updateWith_fields ar p.posTol p.rotTol st.sol st.q (fun i r => (ev i (st.q i r)).2) p.esAny
  rw [g1, g4]
  rcases hw with e | ⟨m, e⟩ <;> rw [e]
  · exact ⟨f4, f1⟩
  · exact ⟨f4, f1⟩

theorem iterateWith_kept (ar : SolverArith) (p : IKParams d) (ev : Eval N d) (k : ℕ) (st : IKState N R d) (i : Fin N) (r : Fin R)
    (hc : st.sol.conv i r = true) :
    ((p.bodyWith ar ev)^[k] st).sol.conv i r = true ∧ ((p.bodyWith ar ev)^[k] st).sol.solutions i r = st.sol.solutions i r := by
  induction k generalizing st with
  | zero => exact ⟨hc, rfl⟩
  | succ k ih =>
    rw [Function.iterate_succ_apply]
    obtain ⟨e1, e2⟩ := bodyWith_conv ar p ev st
    obtain ⟨a, b⟩ := updateWith_kept ar p.posTol p.rotTol st.sol st.q (fun i r => (ev i (st.q i r)).2) p.esAny i r hc
    obtain ⟨c, e⟩ := ih (p.bodyWith ar ev st) (by rw [e1]; exact a)
    exact ⟨c, e.trans (by rw [e2]; exact b)⟩

/-- **C134**: whatever the other problems of the batch contain (infinities, NaN), a retry that converges when problem `i` is
solved alone converges with the same solution in the batch (without line search and before limit enforcement). -/
theorem C134_others (ar : SolverArith) (p : IKParams d) (hls : p.lineSearch = none) (ev : Eval N d) (q0 : Fin N → Fin R → QRow d)
    (i : Fin N) (r : Fin R) :
    let alone := (p.solveCoreWith ar (fun _ : Fin 1 => ev i) (fun _ => q0 i)).sol
    let batch := (p.solveCoreWith ar ev q0).sol
    alone.conv 0 r = true → batch.conv i r = true ∧ batch.solutions i r = alone.solutions 0 r := by
  intro alone batch hc
  obtain ⟨ka, a1, a2, a3, a4⟩ := loopWith_spec ar p (fun _ : Fin 1 => ev i) p.maxIter ⟨fun _ => q0 i, Sol.init 1 R d, none⟩
  obtain ⟨kb, b1, b2, b3, b4⟩ := loopWith_spec ar p ev p.maxIter ⟨q0, Sol.init N R d, none⟩
  set st0 : IKState N R d := ⟨q0, Sol.init N R d, none⟩ with hst0
  have hst : (⟨fun _ => q0 i, Sol.init 1 R d, none⟩ : IKState 1 R d) = st0.only i := rfl
  rw [hst] at a2 a3 a4
  have hle : ka ≤ kb := by
    by_contra hlt
    push Not at hlt
    obtain ⟨j, hj⟩ := a4 kb hlt
    rw [← iterateWith_only ar p hls] at hj
    have := b3 (by omega) i
    rw [b2] at this
    change ((p.bodyWith ar ev)^[kb] st0).sol.remaining i = true at hj
    rw [this] at hj; cases hj
  have halone : alone = (((p.bodyWith ar ev)^[ka] st0).sol.updateWith ar p.posTol p.rotTol ((p.bodyWith ar ev)^[ka] st0).q
      (fun i r => (ev i (((p.bodyWith ar ev)^[ka] st0).q i r)).2) p.esAny).only i := by
    rw [updateWith_only]
    change (p.solveCoreWith ar (fun _ : Fin 1 => ev i) (fun _ => q0 i)).sol = _
    unfold IKParams.solveCoreWith
    dsimp only
    rw [hst, a2, ← iterateWith_only ar p hls]
    rfl
  have hbatch : batch = ((p.bodyWith ar ev)^[kb] st0).sol.updateWith ar p.posTol p.rotTol ((p.bodyWith ar ev)^[kb] st0).q
      (fun i r => (ev i (((p.bodyWith ar ev)^[kb] st0).q i r)).2) p.esAny := by
    change (p.solveCoreWith ar ev q0).sol = _
    unfold IKParams.solveCoreWith
    dsimp only
    rw [← hst0, b2]
  set sa := (p.bodyWith ar ev)^[ka] st0 with hsa
  rw [halone] at hc ⊢
  rcases Nat.eq_or_lt_of_le hle with rfl | hlt
  · rw [hbatch]; exact ⟨hc, rfl⟩
  · obtain ⟨n, rfl⟩ := Nat.exists_eq_add_of_lt hlt
    have e : (p.bodyWith ar ev)^[ka + n + 1] st0 = (p.bodyWith ar ev)^[n] (p.bodyWith ar ev sa) := by
      rw [show ka + n + 1 = n + (1 + ka) by omega, Function.iterate_add_apply, Function.iterate_add_apply]
      rfl
    obtain ⟨h1, h2⟩ := bodyWith_conv ar p ev sa
    obtain ⟨g1, g2⟩ := iterateWith_kept ar p ev n (p.bodyWith ar ev sa) i r (by rw [h1]; exact hc)
    rw [← e] at g1 g2
    have := updateWith_kept ar p.posTol p.rotTol ((p.bodyWith ar ev)^[ka + n + 1] st0).sol ((p.bodyWith ar ev)^[ka + n + 1] st0).q
      (fun i r => (ev i (((p.bodyWith ar ev)^[ka + n + 1] st0).q i r)).2) p.esAny i r g1
    rw [hbatch]
    exact ⟨this.1, this.2.trans (g2.trans (by rw [h2]; rfl))⟩

/-! ## The whole call -/

section
open Tn

theorem rowsI_ok {α : Type} {f : Fin N → QRow d → Except Err α} {q : Tn Fl} {g : Fin (N * R) → α}
    (h : ∀ b : Fin (N * R), f b.divNat (fun j => q.get [b.val, j.val]) = .ok (g b)) : rowsI R f q = .ok (List.ofFn g) := by
  unfold rowsI
  apply mapM_congr_ok
  rw [List.forall₂_iff_get]
  refine ⟨by simp, fun k h1 h2 => ?_⟩
  have hk : k < N * R := by simpa using h1
  have hdiv : k / R < N := (Fin.divNat ⟨k, hk⟩).2
  simp only [List.get_eq_getElem, List.getElem_range, List.getElem_ofFn]
  rw [dif_pos hdiv]
  exact h ⟨k, hk⟩

theorem colsI_ofFn {α : Type} (t : Tag) {n B : ℕ} (g : Fin B → α) (f : α → Fin n → Fl) :
    colsI t B (List.ofFn g) f = tab3 t fun b k (_ : Fin 1) => f (g b) k := by
  refine eq_tab3 rfl rfl fun b k l => (ofFn_get (valid3.2 ⟨b.2, k.2, l.2⟩)).trans ?_
  simp [List.getElem?_ofFn]

theorem errI_ok (m : IeeeRot) {rf : Frame} {rest : List Frame} (h : WF (serialRoot rf rest))
    (hd : d = (pathJoints (rf :: rest)).length) (targets : Fin N → FM4) (i : Fin N) (q : QRow d) :
    errI m (serialOf rf rest) targets i q =
      .ok (deltaPoseI m (teeI m.toIeee rf rest (List.ofFn fun j (_ : Fin 1) => q j) 0) (targets i)) := by
  have hth : (List.ofFn fun j (_ : Fin 1) => q j).length = (pathJoints (rf :: rest)).length := by rw [List.length_ofFn, hd]
  have hth' := hth
  rw [pathJoints_length] at hth'
  have hfk : (serialOf rf rest).chain.fkTensorI m.toIeee (Chain.staticI m.toIeee (serialOf rf rest).chain.root)
      (List.ofFn fun j (_ : Fin 1) => q j) =
      .ok ((List.range (visit (serialRoot rf rest)).length).map (poseI m.toIeee (serialRoot rf rest) (List.ofFn fun j (_ : Fin 1) => q j))) := by
    apply fkTensorI_ok m.toIeee h.joints_nodup
    · intro hne; rw [hth']; exact List.length_pos_iff.2 hne
    · simp [broadcastCols, hth']
  obtain ⟨fl, hfl, hfn, hfm⟩ := exists_last rf rest
  obtain ⟨j, e, he, rfl⟩ := exists_pos hfm
  have hj : j < (visit (serialRoot rf rest)).length := (List.getElem?_eq_some_iff.1 he).1
  have hidx : (serialOf rf rest).eefIdx = j := by
    show posOf (serialRoot rf rest) (lastName rf rest) = j
    rw [← hfn, h.posOf_eq he]
  unfold errI
  simp only [hfk, ok_bind]
  rw [hidx, tensorAtI, List.getElem?_map, List.getElem?_range hj]
  simp only [Option.map_some, ok_bind, pure_ok]
  rw [← h.posOf_eq he, poseI_posOf m.toIeee h _ (serial_path rf rest) hfl]
  rfl

theorem evalRows_rowWise (m : IeeeRot) {rf : Frame} {rest : List Frame} (h : WF (serialRoot rf rest))
    (hd : d = (pathJoints (rf :: rest)).length) (targets : Fin N → FM4) (t : Tag)
    (step : List (Fin 6 → Fl) → (Fin 6 → Fl) → QRow d) :
    ∃ ev : Eval N d, ReportsErrorI m (serialOf rf rest) targets ev ∧
      RowWise t R (evalRowsT m (serialOf rf rest) R t targets fun J dx => .ok (step J dx)) ev := by
  have hlen : ∀ q : QRow d, (List.ofFn fun j (_ : Fin 1) => q j).length = (pathJoints (rf :: rest)).length := by
    intro q; rw [List.length_ofFn, hd]
  have hev : ∀ i (q : QRow d), ∃ x, evalI m (serialOf rf rest) targets (fun J dx => .ok (step J dx)) i q = .ok x ∧
      x.2 = deltaPoseI m (teeI m.toIeee rf rest (List.ofFn fun j (_ : Fin 1) => q j) 0) (targets i) := by
    intro i q
    unfold evalI
    rw [jacobianTensorI_ok m.toIeee h _ (hlen q)]
    exact ⟨_, rfl, rfl⟩
  choose ev e1 e2 using hev
  refine ⟨ev, ⟨fun i q => ⟨_, _, jacobianTensorI_ok m.toIeee h _ (hlen q), e2 i q⟩⟩, ⟨fun q => ?_, fun q => ?_⟩⟩
  · have : rowsI R (evalI m (serialOf rf rest) targets fun J dx => .ok (step J dx)) (tab2 t (flat q)) =
        .ok (List.ofFn fun b : Fin (N * R) => ev b.divNat (flat q b)) := by
      refine rowsI_ok fun b => ?_
      simp only [tab2_get]
      exact e1 _ _
    simp only [evalRowsT, this, ok_bind, pure_ok, colsI_ofFn]
  · have : rowsI R (d := d) (errI m (serialOf rf rest) targets) (tab2 t (flat q)) =
        .ok (List.ofFn fun b : Fin (N * R) => (ev b.divNat (flat q b)).2) := by
      refine rowsI_ok fun b => ?_
      simp only [tab2_get]
      rw [errI_ok m h hd, e2]
    simp only [evalRowsT, this, ok_bind, pure_ok, colsI_ofFn]

/-- **C134**: with a kernel that does not raise (`_ik_step_kernel`: `torch.linalg.solve` gives NaN), a call with infinities and
NaN among the targets and the starting values returns.  A retry that it reports as converged has finite joint values and a target
without infinity or NaN in its first three rows; a joint value that is NaN at the start is NaN in the solution, and that retry is
not reported as converged. -/
theorem C134_returns_partial (m : IeeeRot) (root rf fe : Frame) (rootName : Name) (path : List Frame) (h : WF root)
    (hs : StartsAt root rf rootName) (hp : IsPath rf path) (hl : path.getLast? = some fe) (hd : d = (pathJoints path).length)
    (targets : Fin N → FM4) (dt : DType) (v : Device) (step : List (Fin 6 → Fl) → (Fin 6 → Fl) → QRow d) (p : IKParams d)
    (hR : 0 < R) (hd0 : 0 < d) (initial : Tn Fl) (q0 : Fin N → Fin R → QRow d) (h0 : StartsFrom (flTag dt v) initial q0) :
    ∃ s sol, SerialChain.init root fe.name rootName = .ok s ∧
      p.solveT (evalRowsT m s R (flTag dt v) targets fun J dx => .ok (step J dx)) N R (flTag dt v) initial = .ok sol ∧
      ∀ (i : Fin N) (r : Fin R),
        (sol.conv.get [i.val, r.val] = true → (∀ (a : Fin 3) (b : Fin 4), (targets i a.castSucc b).isFinite = true) ∧
          ∀ j : Fin d, (sol.solutions.get [i.val, r.val, j.val]).isFinite = true) ∧
        ∀ j : Fin d, q0 i r j = .nan → sol.solutions.get [i.val, r.val, j.val] = .nan ∧ sol.conv.get [i.val, r.val] = false := by
  have hp' := hp
  obtain ⟨rest, rfl⟩ := isPath_head hp
  have hws := serialRoot_wf (h.sub hs.1) hp
  have hse := serialInit_ok h hs hp hl rfl
  obtain ⟨ev, e1, e2⟩ := evalRows_rowWise (R := R) m hws hd targets (flTag dt v) step
  refine ⟨_, _, hse, solve_tensors e2 hR hd0 p (h0.start hR hd0), fun i r => ?_⟩
  have a1 := C134_converged m root rf fe rootName _ h hs hp hl hd _ hse targets ev e1 .exact exact_strict p q0 i r
  have a2 := C134_nan_start m root rf fe rootName _ h hs hp hl hd _ hse targets ev e1 .exact exact_strict p q0 i r
  rw [solveWith_exact] at a1 a2
  simp only [Sol.tensors, tab2_get, tab3_get]
  exact ⟨a1, fun j => a2 j⟩

/-- a revolute joint value that is not finite shows in every row of the rotation column of its frame -/
theorem pathI_rotation (m : Ieee) (val : Joint → Fl) (p : List Frame) {f : Frame} (hf : f.joint.jtype = .revolute)
    (hq : (val f.joint).isFinite = false) (i : Fin 4) : (pathI m val (p ++ [f]) i 0).isFinite = false := by
  have hm : (motionI m f.joint (val f.joint) 0 0).isFinite = false := by
    simp only [motionI, hf]
    exact m.res_strict (add_strict (.inl (m.cos_strict _ hq)))
  have hloc : ∀ i, (localI m f (val f.joint) i 0).isFinite = false := fun i => m.mul_strict _ _ i 0 0 (.inr hm)
  cases p with
  | nil => exact hloc i
  | cons g p =>
    have : pathI m val (g :: p ++ [f]) = m.mul (pathI m val (g :: p)) (localI m f (val f.joint)) := by
      simp only [pathI, List.cons_append, List.foldl_append, List.foldl_cons, List.foldl_nil]
    rw [this]
    exact m.mul_strict _ _ i 0 0 (.inr (hloc 0))

theorem rowsI_error {α : Type} {f : Fin N → QRow d → Except Err α} {q : Tn Fl} {e : Err}
    (h : ∀ i x, (∃ y, f i x = .ok y) ∨ f i x = .error e) (b : Fin (N * R)) (hb : f b.divNat (fun j => q.get [b.val, j.val]) = .error e) :
    rowsI R f q = .error e := by
  unfold rowsI
  refine mapM_error _ _ e (fun k hk => ?_) ⟨b.val, List.mem_range.2 b.2, ?_⟩
  · have hdiv : k / R < N := (Fin.divNat ⟨k, List.mem_range.1 hk⟩).2
    rw [dif_pos hdiv]
    exact h _ _
  · have hdiv : b.val / R < N := b.divNat.2
    rw [dif_pos hdiv]
    exact hb

/-- `torch.linalg.svd` raises for a row whose joint values are all NaN or infinite -/
theorem svd_raises (m : IeeeRot) {rf : Frame} {rest : List Frame} (h : WF (serialRoot rf rest))
    (hd : d = (pathJoints (rf :: rest)).length) (hrev : ∃ jn ∈ pathJoints (rf :: rest), jn.jtype = .revolute) (targets : Fin N → FM4)
    (w : Fin 6 → ℝ) (total : List (Fin 6 → Fl) → (Fin 6 → Fl) → Fin d → Fin 6 → Fl) (i : Fin N) (q : QRow d)
    (hq : ∀ j, (q j).isFinite = false) :
    evalI m (serialOf rf rest) targets (svdStepI m.toIeee w total) i q = .error .runtimeError := by
  have hlen : (List.ofFn fun j (_ : Fin 1) => q j).length = (pathJoints (rf :: rest)).length := by rw [List.length_ofFn, hd]
  obtain ⟨jn, hjn, hjt⟩ := hrev
  have e1 : pathJoints (rf :: rest) = (dofFrames rf rest).map Frame.joint := by
    rw [dofFrames_joints, serialRoot_moving]; rfl
  rw [e1] at hjn
  obtain ⟨f, hf, rfl⟩ := List.mem_map.1 hjn
  obtain ⟨k, hk⟩ := List.getElem?_of_mem hf
  have hkd : k < d := by
    have := (List.getElem?_eq_some_iff.1 hk).1
    rw [hd, e1, List.length_map]; exact this
  obtain ⟨f', hf', -, hfp, hk', hc⟩ := serial_joint h hd ⟨k, hkd⟩
  obtain rfl : f = f' := Option.some.inj (hk.symm.trans hk')
  obtain ⟨p1, p2, hsplit⟩ := List.append_of_mem hfp
  have hpath : IsPath (serialRoot rf rest) (p1 ++ [f] ++ p2) := by
    have := serial_path rf rest
    rw [hsplit] at this
    simpa using this
  have hbad : ∀ a, (poseI m.toIeee (serialRoot rf rest) (List.ofFn fun j (_ : Fin 1) => q j) (posOf (serialRoot rf rest) f.name) 0
      a 0).isFinite = false := by
    intro a
    rw [poseI_posOf m.toIeee h _ (isPath_prefix hpath) (by simp)]
    exact pathI_rotation m.toIeee _ p1 hjt (by rw [hc q]; exact hq _) a
  unfold evalI
  rw [jacobianTensorI_ok m.toIeee h _ hlen, ok_bind]
  dsimp only
  have hs : svdStepI m.toIeee w total
      (((dofFrames rf rest).map fun f b => jcolI m.toIeee (teeI m.toIeee rf rest (List.ofFn fun j (_ : Fin 1) => q j) b)
        (poseI m.toIeee (serialRoot rf rest) (List.ofFn fun j (_ : Fin 1) => q j) (posOf (serialRoot rf rest) f.name) b)
        f.joint.axis (f.joint.jtype = .revolute)).map fun c => c 0)
      (deltaPoseI m (teeI m.toIeee rf rest (List.ofFn fun j (_ : Fin 1) => q j) 0) (targets i)) = .error .runtimeError := by
    unfold svdStepI
    dsimp only
    rw [if_pos]
    refine ⟨_, List.mem_map.2 ⟨_, List.mem_map.2 ⟨_, List.mem_map.2 ⟨f, hf, rfl⟩, rfl⟩, rfl⟩, 3, ?_⟩
    refine m.toIeee.times_bad (.inr ?_)
    simp only [jcolI, hjt, if_true]
    exact m.toIeee.add_bad (.inl (m.toIeee.add_bad (.inl (m.toIeee.times_bad (.inl (hbad 0))))))
  rw [hs, error_bind]

theorem evalI_svd_cases (m : IeeeRot) {rf : Frame} {rest : List Frame} (h : WF (serialRoot rf rest))
    (hd : d = (pathJoints (rf :: rest)).length) (targets : Fin N → FM4)
    (w : Fin 6 → ℝ) (total : List (Fin 6 → Fl) → (Fin 6 → Fl) → Fin d → Fin 6 → Fl) (i : Fin N) (q : QRow d) :
    (∃ x, evalI m (serialOf rf rest) targets (svdStepI m.toIeee w total) i q = .ok x ∧
      ((∃ a : Fin 3, targets i a.castSucc 3 = .nan) → ∀ j, x.1 j = .nan)) ∨
    evalI m (serialOf rf rest) targets (svdStepI m.toIeee w total) i q = .error .runtimeError := by
  have hlen : (List.ofFn fun j (_ : Fin 1) => q j).length = (pathJoints (rf :: rest)).length := by rw [List.length_ofFn, hd]
  have addn : ∀ x y : Fl, x = .nan ∨ y = .nan → m.toIeee.add x y = .nan := by
    rintro x y (rfl | rfl)
    · cases y <;> rfl
    · cases x <;> rfl
  have timesn : ∀ x : Fl, m.toIeee.times x .nan = .nan := by intro x; cases x <;> rfl
  have subn : ∀ x : Fl, m.toIeee.sub .nan x = .nan := by intro x; cases x <;> rfl
  unfold evalI
  rw [jacobianTensorI_ok m.toIeee h _ hlen, ok_bind]
  dsimp only
  unfold svdStepI
  dsimp only
  split_ifs
  · right; rw [error_bind]
  · left
    refine ⟨_, rfl, ?_⟩
    rintro ⟨a, ha⟩ j
    dsimp only
    have key : ∃ k : Fin 6, weighI m.toIeee w
        (deltaPoseI m (teeI m.toIeee rf rest (List.ofFn fun j (_ : Fin 1) => q j) 0) (targets i)) k = .nan := by
      refine ⟨⟨a.val, by omega⟩, ?_⟩
      unfold weighI
      have : deltaPoseI m (teeI m.toIeee rf rest (List.ofFn fun j (_ : Fin 1) => q j) 0) (targets i) ⟨a.val, by omega⟩ = .nan := by
        fin_cases a
        · exact (congrArg (fun x => m.toIeee.sub x _) ha).trans (subn _)
        · exact (congrArg (fun x => m.toIeee.sub x _) ha).trans (subn _)
        · exact (congrArg (fun x => m.toIeee.sub x _) ha).trans (subn _)
      rw [this, timesn]
    obtain ⟨k, hk⟩ := key
    generalize weighI m.toIeee w
        (deltaPoseI m (teeI m.toIeee rf rest (List.ofFn fun j (_ : Fin 1) => q j) 0) (targets i)) = dx at hk ⊢
    fin_cases k
    · exact addn _ _ (.inl (addn _ _ (.inl (addn _ _ (.inl (addn _ _ (.inl (addn _ _ (.inl (by
        simp only [Fin.zero_eta] at hk; rw [hk, timesn]))))))))))
    · exact addn _ _ (.inl (addn _ _ (.inl (addn _ _ (.inl (addn _ _ (.inl (addn _ _ (.inr (by
        simp only [Fin.mk_one] at hk; rw [hk, timesn]))))))))))
    · exact addn _ _ (.inl (addn _ _ (.inl (addn _ _ (.inl (addn _ _ (.inr (by
        simp only [Fin.reduceFinMk] at hk; rw [hk, timesn]))))))))
    · exact addn _ _ (.inl (addn _ _ (.inl (addn _ _ (.inr (by simp only [Fin.reduceFinMk] at hk; rw [hk, timesn]))))))
    · exact addn _ _ (.inl (addn _ _ (.inr (by simp only [Fin.reduceFinMk] at hk; rw [hk, timesn]))))
    · exact addn _ _ (.inr (by simp only [Fin.reduceFinMk] at hk; rw [hk, timesn]))

/-- from a state whose joint values cannot be evaluated the loop goes nowhere -/
theorem loopT_step_error {p : IKParams d} {E : EvalT} {t : Tag} {st : StateT} {e : Err} (he : E.step st.q = .error e) (k : ℕ) :
    p.loopT E N R t k st = .error e ∨ p.loopT E N R t k st = .ok st := by
  cases k with
  | zero => exact .inr rfl
  | succ k =>
    rw [IKParams.loopT]
    split
    · left
      rw [IKParams.bodyT, he, error_bind, error_bind]
    · exact .inr rfl

/-- **C134**, what is missing: with `PseudoInverseIKWithSVD` one target with NaN in its position makes the call raise, whatever
the other targets are: the step of its rows is NaN, so their Jacobian is NaN in the next evaluation, and `torch.linalg.svd` of the
batch raises `LinAlgError`.  (No line search; at least one iteration; a revolute joint.) -/
theorem C134_fails_svd (m : IeeeRot) (root rf fe : Frame) (rootName : Name) (path : List Frame) (h : WF root)
    (hs : StartsAt root rf rootName) (hp : IsPath rf path) (hl : path.getLast? = some fe) (hd : d = (pathJoints path).length)
    (hrev : ∃ jn ∈ pathJoints path, jn.jtype = .revolute) (targets : Fin N → FM4) (dt : DType) (v : Device) (w : Fin 6 → ℝ)
    (total : List (Fin 6 → Fl) → (Fin 6 → Fl) → Fin d → Fin 6 → Fl) (p : IKParams d) (hls : p.lineSearch = none) (hit : 0 < p.maxIter)
    (hR : 0 < R) (initial : Tn Fl) (q0 : Fin N → Fin R → QRow d) (h0 : StartsFrom (flTag dt v) initial q0)
    (i : Fin N) (a : Fin 3) (hnan : targets i a.castSucc 3 = .nan) :
    ∃ s, SerialChain.init root fe.name rootName = .ok s ∧
      p.solveT (evalRowsT m s R (flTag dt v) targets (svdStepI m.toIeee w total)) N R (flTag dt v) initial = .error .runtimeError := by
  have hd0 : 0 < d := by
    obtain ⟨jn, hjn, -⟩ := hrev
    rw [hd]; exact List.length_pos_of_mem hjn
  obtain ⟨rest, rfl⟩ := isPath_head hp
  have hws := serialRoot_wf (h.sub hs.1) hp
  have hse := serialInit_ok h hs hp hl rfl
  refine ⟨_, hse, ?_⟩
  have hst := h0.start hR hd0
  set E := evalRowsT m (serialOf rf rest) R (flTag dt v) targets (svdStepI m.toIeee w total) with hE
  have hcases := evalI_svd_cases (N := N) m hws hd targets w total
  have hrow : ∀ i x, (∃ y, evalI m (serialOf rf rest) targets (svdStepI m.toIeee w total) i x = .ok y) ∨
      evalI m (serialOf rf rest) targets (svdStepI m.toIeee w total) i x = .error .runtimeError := by
    intro i x
    rcases hcases i x with ⟨y, hy, -⟩ | hy
    · exact .inl ⟨y, hy⟩
    · exact .inr hy
  have herr : ∀ (q : Fin N → Fin R → QRow d) (i : Fin N) (r : Fin R),
      evalI m (serialOf rf rest) targets (svdStepI m.toIeee w total) i (q i r) = .error .runtimeError →
      E.step (tab2 (flTag dt v) (flat q)) = .error .runtimeError := by
    intro q i r hq
    have : rowsI R (evalI m (serialOf rf rest) targets (svdStepI m.toIeee w total)) (tab2 (flTag dt v) (flat q)) = .error .runtimeError := by
      refine rowsI_error hrow (pr i r) ?_
      simp only [tab2_get, flat_pr, pr_divNat]
      exact hq
    simp only [hE, evalRowsT, this, error_bind]
  by_cases hall : ∀ i r, ∃ y, evalI m (serialOf rf rest) targets (svdStepI m.toIeee w total) i (q0 i r) = .ok y
  swap
  · push Not at hall
    obtain ⟨i', r', hn⟩ := hall
    refine solveT_step_error hst (herr q0 i' r' ?_)
    rcases hrow i' (q0 i' r') with ⟨y, hy⟩ | hy
    · exact absurd hy (hn y)
    · exact hy
  -- an evaluation that never fails and agrees with the code at the starting values
  classical
  let ev : Eval N d := fun i q => match evalI m (serialOf rf rest) targets (svdStepI m.toIeee w total) i q with
    | .ok x => x
    | .error _ => (fun _ => .nan, fun _ => .nan)
  have hev : ∀ i r, evalI m (serialOf rf rest) targets (svdStepI m.toIeee w total) i (q0 i r) = .ok (ev i (q0 i r)) := by
    intro i r
    obtain ⟨y, hy⟩ := hall i r
    simp only [ev, hy]
  let E' : EvalT := ⟨fun q => .ok (tab3 (flTag dt v) fun (b : Fin (N * R)) k (_ : Fin 1) => (ev b.divNat fun j => q.get [b.val, j.val]).1 k,
      tab3 (flTag dt v) fun (b : Fin (N * R)) k (_ : Fin 1) => (ev b.divNat fun j => q.get [b.val, j.val]).2 k),
    fun q => .ok (tab3 (flTag dt v) fun (b : Fin (N * R)) k (_ : Fin 1) => (ev b.divNat fun j => q.get [b.val, j.val]).2 k)⟩
  have hE' : RowWise (flTag dt v) R E' ev := ⟨fun q => by simp only [E', tab2_get], fun q => by simp only [E', tab2_get]⟩
  have hstep : E.step (tab2 (flTag dt v) (flat q0)) = E'.step (tab2 (flTag dt v) (flat q0)) := by
    have : rowsI R (evalI m (serialOf rf rest) targets (svdStepI m.toIeee w total)) (tab2 (flTag dt v) (flat q0)) =
        .ok (List.ofFn fun b : Fin (N * R) => ev b.divNat (flat q0 b)) := by
      refine rowsI_ok fun b => ?_
      simp only [tab2_get]
      exact hev _ _
    rw [hE'.step]
    simp only [hE, evalRowsT, this, ok_bind, pure_ok, colsI_ofFn]
  set st0 : IKState N R d := ⟨q0, Sol.init N R d, none⟩ with hst0
  have hmove : ∀ q dq dx rem, p.moveT E N (flTag dt v) q dq dx rem = p.moveT E' N (flTag dt v) q dq dx rem := by
    intro q dq dx rem
    simp only [IKParams.moveT, hls]
  have hbody : p.bodyT E N R (flTag dt v) (st0.tensors (flTag dt v)) = .ok ((p.body ev st0).tensors (flTag dt v)) := by
    rw [← body_tensors hE' i.pos hR hd0 p st0, IKParams.bodyT, IKParams.bodyT]
    simp only [hmove]
    rw [show (st0.tensors (flTag dt v)).q = tab2 (flTag dt v) (flat q0) from rfl, hstep]
  have hr : (⟨0, hR⟩ : Fin R).val < R := hR
  have hnanrow : ∀ j, (p.body ev st0).q i ⟨0, hR⟩ j = .nan := by
    intro j
    have hdq : (ev i (q0 i ⟨0, hR⟩)).1 j = .nan := by
      rcases hcases i (q0 i ⟨0, hR⟩) with ⟨x, hx, hx'⟩ | hx
      · rw [hev] at hx
        rw [Except.ok.inj hx]
        exact hx' ⟨a, hnan⟩ j
      · rw [hev] at hx; cases hx
    have hrates : ∀ (q : Fin N → Fin R → QRow d) out rem, p.rates ev q out rem = fun _ _ => p.lr := by
      intro q out rem
      unfold IKParams.rates; rw [hls]
    have hsr : stepRow p.lr (q0 i ⟨0, hR⟩) (ev i (q0 i ⟨0, hR⟩)).1 j = .nan := by
      rw [stepRow, hdq, Fl.mulReal]
      cases q0 i ⟨0, hR⟩ j <;> rfl
    unfold IKParams.body
    simp only [hrates, hst0]
    split_ifs
    · show Fl.clamp (stepRow p.lr (q0 i ⟨0, hR⟩) (ev i (q0 i ⟨0, hR⟩)).1 j) _ _ = .nan
      rw [hsr, Fl.clamp_nan]
    · exact hsr
  have hraise : E.step ((p.body ev st0).tensors (flTag dt v)).q = .error .runtimeError :=
    herr (p.body ev st0).q i ⟨0, hR⟩ (svd_raises m hws hd hrev targets w total i _ fun j => by rw [hnanrow]; rfl)
  obtain ⟨n, hn⟩ : ∃ n, p.maxIter = n + 1 := ⟨p.maxIter - 1, by omega⟩
  have hrem : anyAll (st0.tensors (flTag dt v)).sol.remaining = true := by
    have : anyAll (st0.tensors (flTag dt v)).sol.remaining = decide (∃ i, st0.sol.remaining i = true) := any_1 _ _
    rw [this, decide_eq_true_eq]
    exact ⟨i, rfl⟩
  have hloop : p.loopT E N R (flTag dt v) p.maxIter (st0.tensors (flTag dt v)) =
      p.loopT E N R (flTag dt v) n ((p.body ev st0).tensors (flTag dt v)) := by
    rw [hn, IKParams.loopT, if_pos hrem, hbody, ok_bind]
  rw [IKParams.solveT]
  simp only [hst, ok_bind, init_tensors]
  have e0 : (⟨tab2 (flTag dt v) (flat q0), (Sol.init N R d).tensors (flTag dt v), none⟩ : StateT) = st0.tensors (flTag dt v) := rfl
  rw [e0, hloop]
  rcases loopT_step_error (p := p) (N := N) (R := R) (t := flTag dt v) hraise n with hq | hq
  · rw [hq, error_bind]
  · rw [hq, ok_bind]
    rw [hraise, error_bind]

/-! ## Concrete cases -/

/-- the identity, and the identity with NaN in its position -/
def exTargetsI : Fin 2 → FM4 := ![finM 1, fun i j => if i = 1 ∧ j = 3 then .nan else finM 1 i j]

noncomputable def exPI : IKParams 2 :=
  ⟨fun _ => .ninf, fun _ => .pinf, fun _ => true, 1e-3, 1e-2, 10, 1, none, true, none, 2, true, 3, false⟩

theorem exTree_start : StartsAt exTree exTree [] := ⟨by rw [preorder_eq]; simp, .inl ⟨rfl, rfl⟩⟩
theorem exTree_path : IsPath exTree [exTree, exTree.children[0], exTree.children[0].children[0]] :=
  IsPath.snoc [exTree] _ _ (IsPath.snoc [] _ _ IsPath.single (by simp)) (by simp)
theorem exTree_two : 2 = (pathJoints [exTree, exTree.children[0], exTree.children[0].children[0]]).length := by
  simp [pathJoints, exTree, Frame.children, Frame.joint, Moving]

/-- NaN in a target shows in the pose error -/
example : ∃ (s : SerialChain) (J : List (Fin 1 → Fin 6 → Fl)) (T : Fin 1 → FM4),
    s.jacobianTensorI float32Rot.toIeee (B := 1) [fun _ => .fin 1, fun _ => .fin 2] = .ok (J, T) ∧
    ∃ a, (deltaPoseI float32Rot (T 0) (exTargetsI 1) a).isFinite = false := by
  obtain ⟨s, J, T, -, h2, -, h3⟩ := C134_error_visible float32Rot exTree exTree _ [] _ exTree_wf exTree_start exTree_path rfl exTree_two
    ![.fin 1, .fin 2]
  exact ⟨s, J, T, h2, h3 _ (.inl ⟨1, 3, rfl⟩)⟩

/-- the default solver returns for the two targets and does not report the second as converged, `PseudoInverseIKWithSVD` raises -/
example : ∃ s sol, SerialChain.init exTree exTree.children[0].children[0].name [] = .ok s ∧
    exPI.solveT (evalRowsT (d := 2) float32Rot s 3 (flTag .f32 0) exTargetsI fun _ _ => .ok fun _ => .nan) 2 3 (flTag .f32 0)
      (tab1 (flTag .f32 0) ![Fl.fin 1, Fl.fin 2]) = .ok sol ∧ (∀ r : Fin 3, sol.conv.get [1, r.val] = false) ∧
    exPI.solveT (evalRowsT (d := 2) float32Rot s 3 (flTag .f32 0) exTargetsI (svdStepI float32Rot.toIeee (fun _ => 1) fun _ _ _ _ => .fin 1)) 2 3
      (flTag .f32 0) (tab1 (flTag .f32 0) ![Fl.fin 1, Fl.fin 2]) = .error .runtimeError := by
  have h0 : StartsFrom (N := 2) (R := 3) (flTag .f32 0) (tab1 (flTag .f32 0) ![Fl.fin 1, Fl.fin 2]) (fun _ _ => ![Fl.fin 1, Fl.fin 2]) :=
    ⟨rfl, .inr (.inr ⟨rfl, fun i r j => (tab1_get _ _ j).symm⟩)⟩
  have hrev : ∃ jn ∈ pathJoints [exTree, exTree.children[0], exTree.children[0].children[0]], jn.jtype = .revolute := by
    simp [pathJoints, exTree, Frame.children, Frame.joint, Moving]
  obtain ⟨s, sol, h1, h2, h3⟩ := C134_returns_partial float32Rot exTree exTree _ [] _ exTree_wf exTree_start exTree_path rfl exTree_two
    exTargetsI .f32 0 (fun _ _ _ => .nan) exPI (R := 3) (by norm_num) (by norm_num) _ _ h0
  obtain ⟨s', h1', h4⟩ := C134_fails_svd float32Rot exTree exTree _ [] _ exTree_wf exTree_start exTree_path rfl exTree_two hrev
    exTargetsI .f32 0 (fun _ => 1) (fun _ _ _ _ => .fin 1) exPI rfl (by norm_num [exPI]) (R := 3) (by norm_num) _ _ h0 1 1 rfl
  obtain rfl := Except.ok.inj (h1.symm.trans h1')
  refine ⟨s, sol, h1, h2, fun r => ?_, h4⟩
  by_contra hn
  have := ((h3 1 r).1 (by simpa using hn)).1 1 3
  cases this

/-- a batch with a problem whose error is NaN and one that is solved at once -/
noncomputable def exEvalNan : Eval 2 1 := fun i _ => (fun _ => .nan, fun _ => if i = 1 then .fin 0 else .nan)

example : (exP.solveCoreWith .exact exEvalNan (fun _ (_ : Fin 1) _ => .fin 0)).sol.conv 1 0 = true := by
  refine (C134_others .exact exP rfl exEvalNan (fun _ (_ : Fin 1) _ => .fin 0) 1 0 ?_).1
  simp only [IKParams.solveCoreWith, exP, IKParams.loopWith]
  rw [if_pos ⟨0, rfl⟩]
  simp [IKParams.bodyWith, IKParams.watch, IKParams.ratesWith, IKParams.clamps, Sol.updateWith, Sol.keep, Sol.init, exEvalNan, SolverArith.exact,
    Fl.norm, Fl.isFinite, Fl.lt]
  norm_num

end

end PK
