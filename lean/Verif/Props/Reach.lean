import Verif.Spec.Reach
import Verif.Lemmas.Angle
import Verif.Props.IKSolve

/-!
# C109, C110: the reach of a serial chain, and how much its pose depends on the joint values
-/

namespace PK
open Matrix Spec

/-! ## the end-effector pose of a serial chain -/

theorem pathT_cons (val : Joint → ℝ) (f : Frame) (p : List Frame) : pathT val (f :: p) = localT f (val f.joint) * pathT val p := by
  simp [pathT]

theorem localT_serialRoot (rf : Frame) (rest : List Frame) (q : ℝ) : localT (serialRoot rf rest) q = 1 := by
  simp [localT, serialRoot, Frame.link, Frame.joint, Joint.init, motion]

theorem localT_data {f g : Frame} (hl : f.link = g.link) (hj : f.joint = g.joint) (q : ℝ) : localT f q = localT g q := by
  rw [localT, localT, hl, hj]

theorem pathT_serialNest (val : Joint → ℝ) (p : List Frame) : pathT val (serialNest p) = pathT val p := by
  have h := serialNest_data p
  unfold pathT
  congr 1
  have e : ∀ l : List Frame, l.map (fun f => localT f (val f.joint)) =
      (l.map fun f => (f.name, f.link, f.joint)).map fun x : Name × Link × Joint =>
        x.2.1.offset.getD 1 * x.2.2.offset.getD 1 * motion x.2.2 (val x.2.2) := by
    intro l; rw [List.map_map]; rfl
  rw [e, e, h]

/-- the pose returned by a serial chain is the product of the local transforms below its root -/
theorem serial_pose {root rf fe : Frame} {rootName : Name} {p : List Frame} (h : WF root)
    (hs : StartsAt root rf rootName) (hp : IsPath rf p) (hl : p.getLast? = some fe)
    {B : ℕ} (th : List (Fin B → ℝ)) (hth : th.length = (pathJoints p).length) :
    ∃ s, SerialChain.init root fe.name rootName = .ok s ∧
      s.fkEnd (.tensor B th) = .ok ⟨B, fun b => pathT (pathVal p th b) p.tail⟩ := by
  obtain ⟨rest, rfl⟩ := isPath_head hp
  have hws := serialRoot_wf (h.sub hs.1) hp
  refine ⟨serialOf rf rest, serialInit_ok h hs hp hl rfl, ?_⟩
  rw [serial_fkEnd hws th hth]
  congr 2
  obtain ⟨fl, hfl, hfn, hfm⟩ := exists_last rf rest
  have hpath := serial_isPath rf rest rest.length le_rfl
  rw [List.take_of_length_le (by rw [serialNest_length])] at hpath
  funext b
  rw [← hfn, hws.pose_path th hpath hfl, pathT_cons, localT_serialRoot, Matrix.one_mul, pathT_serialNest]
  have : colVal (serialRoot rf rest) th b = pathVal (rf :: rest) th b := by
    funext j
    rw [colVal, pathVal, column, serialRoot_moving]; rfl
  rw [this]; rfl

/-! ## lengths -/

theorem linkLen_nonneg (f : Frame) : 0 ≤ linkLen f := vlen_nonneg _

theorem travel_nonneg (f : Frame) (q : ℝ) : 0 ≤ travel f q := by
  unfold travel; split
  · exact abs_nonneg q
  · exact le_rfl

theorem armLen_cons (val : Joint → ℝ) (f : Frame) (p : List Frame) :
    armLen val (f :: p) = linkLen f + travel f (val f.joint) + armLen val p := by simp [armLen]

theorem armLen_nonneg (val : Joint → ℝ) (p : List Frame) : 0 ≤ armLen val p := by
  induction p with
  | nil => simp [armLen]
  | cons f p ih => rw [armLen_cons]; linarith [linkLen_nonneg f, travel_nonneg f (val f.joint)]

/-- offsets are rigid, axes of moving joints have length one -/
structure RigidFrame (f : Frame) : Prop where
  off : IsRigid (f.link.offset.getD 1 * f.joint.offset.getD 1)
  axis : Moving f.joint → IsUnitV f.joint.axis

theorem Spec.RigidTree.frame {root f : Frame} (h : RigidTree root) (hf : f ∈ preorder root) : RigidFrame f := by
  refine ⟨IsRigid.mul ?_ ?_, h.axis f hf⟩
  · cases ho : f.link.offset with
    | none => exact isRigid_one
    | some o => exact h.link f hf o ho
  · cases ho : f.joint.offset with
    | none => exact isRigid_one
    | some o => exact h.joint f hf o ho

theorem frame_motion_rigid {f : Frame} (h : RigidFrame f) (q : ℝ) : IsRigid (motion f.joint q) := by
  unfold motion
  cases ht : f.joint.jtype with
  | fixed => exact isRigid_one
  | revolute => exact isRigid_mkHom (isRot_rotAbout (h.axis (by simp [Moving, ht])) _) _
  | prismatic => exact isRigid_mkHom isRot_one _

theorem rot_off {f : Frame} (h : RigidFrame f) : IsRot (rotPart (f.link.offset.getD 1 * f.joint.offset.getD 1)) := h.off.1

theorem rot_motion {f : Frame} (h : RigidFrame f) (q : ℝ) : IsRot (rotPart (motion f.joint q)) := (frame_motion_rigid h q).1

theorem frame_localT_rigid {f : Frame} (h : RigidFrame f) (q : ℝ) : IsRigid (localT f q) := h.off.mul (frame_motion_rigid h q)

theorem frame_pathT_rigid (val : Joint → ℝ) {p : List Frame} (h : ∀ f ∈ p, RigidFrame f) : IsRigid (pathT val p) := by
  induction p with
  | nil => simpa [pathT] using isRigid_one
  | cons f p ih =>
    rw [pathT_cons]
    exact (frame_localT_rigid (h f (by simp)) _).mul (ih fun g hg => h g (by simp [hg]))

/-- the position of the end relative to the joint of the first frame -/
noncomputable def beyond (val : Joint → ℝ) (f : Frame) (p : List Frame) : V3 :=
  rotPart (motion f.joint (val f.joint)) *ᵥ posPart (pathT val p) + posPart (motion f.joint (val f.joint))

theorem posPart_pathT_cons (val : Joint → ℝ) {f : Frame} {p : List Frame} (hf : RigidFrame f) (h : ∀ g ∈ p, RigidFrame g) :
    posPart (pathT val (f :: p)) =
      rotPart (f.link.offset.getD 1 * f.joint.offset.getD 1) *ᵥ beyond val f p +
        posPart (f.link.offset.getD 1 * f.joint.offset.getD 1) := by
  have h1 := (frame_pathT_rigid val h).2
  have h2 := (frame_motion_rigid hf (val f.joint)).2
  rw [pathT_cons, localT, Matrix.mul_assoc, posPart_mul (IsAffine.mul h2 h1), posPart_mul h1]
  rfl

theorem vlen_posPart_motion {f : Frame} (hf : RigidFrame f) (q : ℝ) : vlen (posPart (motion f.joint q)) = travel f q := by
  unfold motion travel
  cases ht : f.joint.jtype with
  | fixed => simp [posPart, vlen]
  | revolute => simp [vlen]
  | prismatic => simp only [posPart_mkHom, vlen_smul, vlen_unit (hf.axis (by simp [Moving, ht])), mul_one]

theorem vlen_neg (v : V3) : vlen (-v) = vlen v := by simp [vlen]

theorem vlen_sub_le (v w : V3) : vlen (v - w) ≤ vlen v + vlen w := by
  rw [sub_eq_add_neg, ← vlen_neg w]; exact vlen_add_le _ _

theorem vlen_beyond_le (val : Joint → ℝ) {f : Frame} {p : List Frame} (hf : RigidFrame f) :
    vlen (beyond val f p) ≤ vlen (posPart (pathT val p)) + travel f (val f.joint) := by
  unfold beyond
  refine (vlen_add_le _ _).trans ?_
  rw [vlen_rot (rot_motion hf _), vlen_posPart_motion hf]

/-- the end is at most the length of the arm away -/
theorem pos_le_armLen (val : Joint → ℝ) {p : List Frame} (h : ∀ f ∈ p, RigidFrame f) :
    vlen (posPart (pathT val p)) ≤ armLen val p := by
  induction p with
  | nil => simp [pathT, armLen, posPart, vlen]
  | cons f p ih =>
    have hf := h f (by simp)
    rw [posPart_pathT_cons val hf fun g hg => h g (by simp [hg]), armLen_cons]
    refine (vlen_add_le _ _).trans ?_
    rw [vlen_rot (rot_off hf)]
    have := ih fun g hg => h g (by simp [hg])
    have := vlen_beyond_le val (p := p) hf
    show _ + linkLen f ≤ _
    linarith

/-- a link that is longer than the rest of the arm keeps the end away from the base -/
theorem linkLen_le_pos (val : Joint → ℝ) {p : List Frame} (h : ∀ f ∈ p, RigidFrame f) {f : Frame} (hf : f ∈ p) :
    2 * linkLen f ≤ vlen (posPart (pathT val p)) + armLen val p := by
  induction p with
  | nil => simp at hf
  | cons g p ih =>
    have hg := h g (by simp)
    have hp : ∀ f ∈ p, RigidFrame f := fun g hg => h g (by simp [hg])
    have e := posPart_pathT_cons val hg hp
    set O := g.link.offset.getD 1 * g.joint.offset.getD 1 with hO
    have hrot : vlen (rotPart O *ᵥ beyond val g p) = vlen (beyond val g p) := vlen_rot (rot_off hg) _
    rw [armLen_cons]
    rcases List.mem_cons.1 hf with rfl | hf
    · have h1 : posPart O = posPart (pathT val (f :: p)) - rotPart O *ᵥ beyond val f p := by rw [e]; abel
      have h2 : linkLen f ≤ vlen (posPart (pathT val (f :: p))) + vlen (beyond val f p) := by
        rw [linkLen, ← hO, h1, ← hrot]; exact vlen_sub_le _ _
      linarith [vlen_beyond_le val (p := p) hg, pos_le_armLen val hp]
    · have h1 := ih hp hf
      have h2 : rotPart O *ᵥ beyond val g p = posPart (pathT val (g :: p)) - posPart O := by rw [e]; abel
      have h3 : vlen (beyond val g p) ≤ vlen (posPart (pathT val (g :: p))) + linkLen g := by
        rw [← hrot, h2]; exact vlen_sub_le _ _
      have h4 : vlen (posPart (pathT val p)) ≤ vlen (beyond val g p) + travel g (val g.joint) := by
        have h5 : rotPart (motion g.joint (val g.joint)) *ᵥ posPart (pathT val p) =
            beyond val g p - posPart (motion g.joint (val g.joint)) := by unfold beyond; abel
        rw [← vlen_rot (rot_motion hg (val g.joint)) (posPart (pathT val p)), h5, ← vlen_posPart_motion hg]
        exact vlen_sub_le _ _
      linarith

/-! ## C109 -/

theorem path_tail_rigid {root rf : Frame} (hr : RigidTree root) (hrf : rf ∈ preorder root) {p : List Frame} (hp : IsPath rf p) :
    ∀ f ∈ p.tail, RigidFrame f :=
  fun f hf => (hr.sub hrf).frame (isPath_mem hp f (List.mem_of_mem_tail hf))

/-- C109: the end-effector is never farther from the root of the serial chain than the length of the arm, and no nearer
than any link is longer than all the others together. -/
theorem C109_reach {root rf fe : Frame} {rootName : Name} {p : List Frame} (h : WF root) (hr : RigidTree root)
    (hs : StartsAt root rf rootName) (hp : IsPath rf p) (hl : p.getLast? = some fe)
    {B : ℕ} (th : List (Fin B → ℝ)) (hth : th.length = (pathJoints p).length) :
    ∃ s T, SerialChain.init root fe.name rootName = .ok s ∧ s.fkEnd (.tensor B th) = .ok ⟨B, T⟩ ∧ ∀ b,
      vlen (posPart (T b)) ≤ armLen (pathVal p th b) p.tail ∧
      ∀ f ∈ p.tail, linkLen f - (armLen (pathVal p th b) p.tail - linkLen f) ≤ vlen (posPart (T b)) := by
  obtain ⟨s, h1, h2⟩ := serial_pose h hs hp hl th hth
  have hR := path_tail_rigid hr hs.1 hp
  refine ⟨s, _, h1, h2, fun b => ⟨pos_le_armLen _ hR, fun f hf => ?_⟩⟩
  linarith [linkLen_le_pos (pathVal p th b) hR hf]

variable {N R d : ℕ}

/-- C109: a retry that is reported as converged has joint values at which the arm is long enough for the target, and no link
keeps it away; up to the position tolerance. -/
theorem C109_converged_reachable {root rf fe : Frame} {rootName : Name} {path : List Frame} (h : WF root) (hr : RigidTree root)
    (hs : StartsAt root rf rootName) (hp : IsPath rf path) (hl : path.getLast? = some fe)
    (hd : d = (pathJoints path).length) {targets : Fin N → M4} (ht : ∀ i, IsRigid (targets i))
    {s : SerialChain} (hse : SerialChain.init root fe.name rootName = .ok s) {ev : Eval N d} (hev : ReportsError s targets ev)
    (p : IKParams d) (q0 : Fin N → Fin R → QRow d) (i : Fin N) (r : Fin R) (hc : (p.solve ev q0).conv i r = true) :
    ∃ x : Fin d → ℝ, (p.solve ev q0).solutions i r = (fun j => .fin (x j)) ∧
      let len := armLen (pathVal path (B := 1) (List.ofFn fun j _ => x j) 0) path.tail
      vlen (posPart (targets i)) < len + p.posTol ∧
      ∀ f ∈ path.tail, linkLen f - (len - linkLen f) < vlen (posPart (targets i)) + p.posTol := by
  obtain ⟨x, T, h1, h2, h3, -⟩ := C51_converged_reaches_target root rf fe rootName path h hr hs hp hl hd targets ht s hse ev hev
    p q0 i r hc
  obtain ⟨s', T', h4, h5, h6⟩ := C109_reach h hr hs hp hl (B := 1) (List.ofFn fun j _ => x j) (by rw [List.length_ofFn, hd])
  rw [hse] at h4
  obtain rfl : s = s' := by simpa using h4
  rw [h2] at h5
  obtain rfl : T = T' := by simpa using h5
  obtain ⟨a1, a2⟩ := h6 0
  have e1 : vlen (posPart (targets i)) ≤ vlen (posPart (targets i) - posPart (T 0)) + vlen (posPart (T 0)) := by
    conv_lhs => rw [← sub_add_cancel (posPart (targets i)) (posPart (T 0))]
    exact vlen_add_le _ _
  have e2 : vlen (posPart (T 0)) ≤ vlen (posPart (targets i) - posPart (T 0)) + vlen (posPart (targets i)) := by
    have : posPart (T 0) = posPart (targets i) - (posPart (targets i) - posPart (T 0)) := by abel
    conv_lhs => rw [this]
    linarith [vlen_sub_le (posPart (targets i)) (posPart (targets i) - posPart (T 0))]
  exact ⟨x, h1, by linarith, fun f hf => by linarith [a2 f hf]⟩

/-- without prismatic joints the length of the arm does not depend on the joint values -/
theorem armLen_rigid {p : List Frame} (h : ∀ f ∈ p, f.joint.jtype ≠ .prismatic) (val : Joint → ℝ) :
    armLen val p = (p.map linkLen).sum := by
  unfold armLen
  congr 1
  refine List.map_congr_left fun f hf => ?_
  have := h f hf
  unfold travel
  split
  · contradiction
  · rw [add_zero]

/-- C109: a target out of reach of a chain without prismatic joints - farther than the sum of its link lengths, or nearer
than one link is longer than the others together - is never reported as converged: by any retry, from any start, with any
settings of the solver. -/
theorem C109_unreachable {root rf fe : Frame} {rootName : Name} {path : List Frame} (h : WF root) (hr : RigidTree root)
    (hs : StartsAt root rf rootName) (hp : IsPath rf path) (hl : path.getLast? = some fe)
    (hrev : ∀ f ∈ path.tail, f.joint.jtype ≠ .prismatic)
    (hd : d = (pathJoints path).length) {targets : Fin N → M4} (ht : ∀ i, IsRigid (targets i))
    {s : SerialChain} (hse : SerialChain.init root fe.name rootName = .ok s) {ev : Eval N d} (hev : ReportsError s targets ev)
    (p : IKParams d) (q0 : Fin N → Fin R → QRow d) (i : Fin N)
    (hfar : (path.tail.map linkLen).sum + p.posTol ≤ vlen (posPart (targets i)) ∨
      ∃ f ∈ path.tail, vlen (posPart (targets i)) + p.posTol ≤ linkLen f - ((path.tail.map linkLen).sum - linkLen f)) :
    (∀ r, (p.solve ev q0).conv i r = false) ∧ (p.solve ev q0).convAny i = false := by
  have key : ∀ r, (p.solve ev q0).conv i r = false := by
    intro r
    by_contra hc
    obtain ⟨x, -, h1, h2⟩ := C109_converged_reachable h hr hs hp hl hd ht hse hev p q0 i r (by simpa using hc)
    rw [armLen_rigid hrev] at h1 h2
    rcases hfar with hf | ⟨f, hf, hf'⟩
    · linarith
    · linarith [h2 f hf]
  refine ⟨key, ?_⟩
  by_contra hc
  obtain ⟨r, hr⟩ := ((flagsOk_solve p ev q0).any_iff i).1 (by simpa using hc)
  rw [key r] at hr
  exact Bool.noConfusion hr

/-! ### prismatic joints with enforced limits -/

theorem pathJoints_nodup {root rf : Frame} (h : WF root) (hrf : rf ∈ preorder root) {p : List Frame} (hp : IsPath rf p) :
    ((pathJoints p).map Joint.name).Nodup := by
  obtain ⟨rest, rfl⟩ := isPath_head hp
  have := (serialRoot_wf (h.sub hrf) hp).joints_nodup
  rwa [serialRoot_moving] at this

/-- the value of the `k`-th joint is in the `k`-th column -/
theorem pathVal_getElem {p : List Frame} (h : ((pathJoints p).map Joint.name).Nodup) {B : ℕ} (th : List (Fin B → ℝ)) (b : Fin B)
    {k : ℕ} {j : Joint} (hk : (pathJoints p)[k]? = some j) : pathVal p th b j = (th.getD k fun _ => 0) b := by
  have hlt := (List.getElem?_eq_some_iff.1 hk).1
  have e : ((pathJoints p).map Joint.name).idxOf j.name = k := by
    have h1 : ((pathJoints p).map Joint.name)[k]'(by simpa using hlt) = j.name := by
      rw [List.getElem_map, (List.getElem?_eq_some_iff.1 hk).2]
    rw [← h1]; exact h.idxOf_getElem k (by simpa using hlt)
  rw [pathVal, e]

/-- C109 with prismatic joints: when limits are enforced and no prismatic joint can be extended by more than `ext`, a target
farther than the sum of the link lengths and extensions is never reported as converged. -/
theorem C109_unreachable_limits {root rf fe : Frame} {rootName : Name} {path : List Frame} (h : WF root) (hr : RigidTree root)
    (hs : StartsAt root rf rootName) (hp : IsPath rf path) (hl : path.getLast? = some fe)
    (hd : d = (pathJoints path).length) {targets : Fin N → M4} (ht : ∀ i, IsRigid (targets i))
    {s : SerialChain} (hse : SerialChain.init root fe.name rootName = .ok s) {ev : Eval N d} (hev : ReportsError s targets ev)
    (p : IKParams d) (hen : p.enforce = true) (hle : ∀ j, Fl.le (p.low j) (p.high j)) (ext : Joint → ℝ)
    (hext : ∀ (k : Fin d) j, (pathJoints path)[k.val]? = some j → j.jtype = .prismatic →
      Fl.le (.fin (-ext j)) (p.low k) ∧ Fl.le (p.high k) (.fin (ext j)))
    (hsome : ∃ k, (p.low k).isFinite = true ∨ (p.high k).isFinite = true)
    (q0 : Fin N → Fin R → QRow d) (i : Fin N)
    (hfar : (path.tail.map fun f => linkLen f + travel f (ext f.joint)).sum + p.posTol ≤ vlen (posPart (targets i))) :
    (∀ r, (p.solve ev q0).conv i r = false) ∧ (p.solve ev q0).convAny i = false := by
  have key : ∀ r, (p.solve ev q0).conv i r = false := by
    intro r
    by_contra hc
    obtain ⟨x, hx, h1, -⟩ := C109_converged_reachable h hr hs hp hl hd ht hse hev p q0 i r (by simpa using hc)
    have hb : (p.enforce && p.hasFiniteLimits) = true := by
      rw [hen, IKParams.hasFiniteLimits]
      obtain ⟨j, hj | hj⟩ := hsome
      · simp [show ∃ j, (p.low j).isFinite = true from ⟨j, hj⟩]
      · simp [show ∃ j, (p.high j).isFinite = true from ⟨j, hj⟩]
    have hsol : ∃ q', (p.solve ev q0).solutions i r = p.clampRow q' := by
      unfold IKParams.solve
      dsimp only
      rw [if_pos hb, enforce_solutions]
      obtain ⟨q', e, -⟩ := refine_iter_clamped p ev i p.nRefine (p.wrapRow ((p.solveCore ev q0).sol.solutions i r))
      exact ⟨q', e⟩
    obtain ⟨q', hq'⟩ := hsol
    have hfin : (p.clampRow q').Finite := by rw [← hq', hx]; exact QRow.finite_fin x
    have hin : ∀ k, Fl.le (p.low k) (.fin (x k)) ∧ Fl.le (.fin (x k)) (p.high k) := by
      intro k
      have := clampRow_within hle hfin k
      rw [← hq', hx] at this
      exact this
    have hlen : armLen (pathVal path (B := 1) (List.ofFn fun j _ => x j) 0) path.tail ≤
        (path.tail.map fun f => linkLen f + travel f (ext f.joint)).sum := by
      refine List.sum_le_sum fun f hf => ?_
      by_cases hj : f.joint.jtype = .prismatic
      · have hm : f.joint ∈ pathJoints path :=
          List.mem_filter.2 ⟨List.mem_map.2 ⟨f, hf, rfl⟩, by simp [Moving, hj]⟩
        obtain ⟨k, hk⟩ := List.mem_iff_getElem?.1 hm
        have hkd : k < d := by rw [hd]; exact (List.getElem?_eq_some_iff.1 hk).1
        rw [pathVal_getElem (pathJoints_nodup h hs.1 hp) _ _ hk]
        have e : ((List.ofFn fun j (_ : Fin 1) => x j).getD k fun _ => 0) 0 = x ⟨k, hkd⟩ := by
          simp [List.getD, List.getElem?_ofFn, hkd]
        rw [e]
        obtain ⟨l1, l2⟩ := hext ⟨k, hkd⟩ f.joint hk hj
        obtain ⟨m1, m2⟩ := hin ⟨k, hkd⟩
        have b1 : -ext f.joint ≤ x ⟨k, hkd⟩ := by
          cases hlo : p.low ⟨k, hkd⟩ <;> rw [hlo] at l1 m1 <;> simp [Fl.le] at l1 m1
          linarith
        have b2 : x ⟨k, hkd⟩ ≤ ext f.joint := by
          cases hhi : p.high ⟨k, hkd⟩ <;> rw [hhi] at l2 m2 <;> simp [Fl.le] at l2 m2
          linarith
        have : |x ⟨k, hkd⟩| ≤ |ext f.joint| := abs_le_abs b2 (by linarith)
        simpa [travel, hj] using this
      · have : ∀ q, travel f q = 0 := by
          intro q; unfold travel; split
          · contradiction
          · rfl
        rw [this, this]
    linarith
  refine ⟨key, ?_⟩
  by_contra hc
  obtain ⟨r, hr⟩ := ((flagsOk_solve p ev q0).any_iff i).1 (by simpa using hc)
  rw [key r] at hr
  exact Bool.noConfusion hr

/-! ## C110 -/

theorem turning_cons (val val' : Joint → ℝ) (f : Frame) (p : List Frame) : turning val val' (f :: p) =
    (if f.joint.jtype = .revolute then |val f.joint - val' f.joint| else 0) + turning val val' p := by
  simp [turning]

theorem rotPart_pathT_cons (val : Joint → ℝ) {f : Frame} {p : List Frame} (hf : RigidFrame f) (h : ∀ g ∈ p, RigidFrame g) :
    rotPart (pathT val (f :: p)) =
      rotPart (f.link.offset.getD 1 * f.joint.offset.getD 1) * (rotPart (motion f.joint (val f.joint)) * rotPart (pathT val p)) := by
  have h1 := (frame_pathT_rigid val h).2
  have h2 := (frame_motion_rigid hf (val f.joint)).2
  rw [pathT_cons, localT, Matrix.mul_assoc, rotPart_mul (IsAffine.mul h2 h1), rotPart_mul h1]

theorem rotAngle_motion {f : Frame} (hf : RigidFrame f) (a b : ℝ) :
    rotAngle (rotPart (motion f.joint a) * (rotPart (motion f.joint b))ᵀ) ≤ if f.joint.jtype = .revolute then |a - b| else 0 := by
  unfold motion
  cases ht : f.joint.jtype with
  | fixed =>
    have : rotPart (1 : M4) = 1 := by rw [← mkHom_one, rotPart_mkHom]
    simp [this, rotAngle_one]
  | prismatic => simp [rotAngle_one]
  | revolute =>
    have hU := hf.axis (by simp [Moving, ht])
    have e : rotAbout f.joint.axis a * (rotAbout f.joint.axis b)ᵀ = rotAbout f.joint.axis (a - b) := by
      have h1 : rotAbout f.joint.axis a = rotAbout f.joint.axis (a - b) * rotAbout f.joint.axis b := by
        rw [rotAbout_mul hU, sub_add_cancel]
      rw [h1, Matrix.mul_assoc, isRot_mult (isRot_rotAbout hU b), Matrix.mul_one]
    simp only [rotPart_mkHom, e, if_true]
    exact rotAngle_rotAbout_le hU _

theorem isRot_transpose {A : M3} (h : IsRot A) : IsRot Aᵀ := by
  unfold IsRot at *
  rw [Matrix.mem_specialOrthogonalGroup_iff] at *
  refine ⟨?_, by rw [Matrix.det_transpose]; exact h.2⟩
  rw [Matrix.mem_orthogonalGroup_iff]
  have := (Matrix.mem_orthogonalGroup_iff' (Fin 3) ℝ).1 h.1
  simpa [Matrix.star_eq_conjTranspose] using this

theorem isRot_mul {A B : M3} (hA : IsRot A) (hB : IsRot B) : IsRot (A * B) :=
  Submonoid.mul_mem (Matrix.specialOrthogonalGroup (Fin 3) ℝ) hA hB

/-- the orientations differ by at most the sum of the changes of the revolute joints -/
theorem rotAngle_pathT (val val' : Joint → ℝ) {p : List Frame} (h : ∀ f ∈ p, RigidFrame f) :
    rotAngle (rotPart (pathT val p) * (rotPart (pathT val' p))ᵀ) ≤ turning val val' p := by
  induction p with
  | nil =>
    have : rotPart (1 : M4) = 1 := by rw [← mkHom_one, rotPart_mkHom]
    simp [pathT, turning, this, rotAngle_one]
  | cons f p ih =>
    have hf := h f (by simp)
    have hp : ∀ g ∈ p, RigidFrame g := fun g hg => h g (by simp [hg])
    rw [rotPart_pathT_cons val hf hp, rotPart_pathT_cons val' hf hp, turning_cons]
    set O := rotPart (f.link.offset.getD 1 * f.joint.offset.getD 1) with hO
    set M := rotPart (motion f.joint (val f.joint)) with hM
    set M' := rotPart (motion f.joint (val' f.joint)) with hM'
    set P := rotPart (pathT val p) with hP
    set P' := rotPart (pathT val' p) with hP'
    have rM : IsRot M := rot_motion hf _
    have rM' : IsRot M' := rot_motion hf _
    have rP : IsRot P := (frame_pathT_rigid val hp).1
    have rP' : IsRot P' := (frame_pathT_rigid val' hp).1
    have e : O * (M * P) * (O * (M' * P'))ᵀ = O * ((M * (P * P'ᵀ) * Mᵀ) * (M * M'ᵀ)) * Oᵀ := by
      rw [Matrix.transpose_mul, Matrix.transpose_mul]
      have hMM : Mᵀ * M = 1 := isRot_tmul rM
      calc O * (M * P) * (P'ᵀ * M'ᵀ * Oᵀ) = O * (M * (P * P'ᵀ) * 1 * M'ᵀ) * Oᵀ := by simp only [Matrix.mul_assoc, Matrix.one_mul]
        _ = _ := by rw [← hMM]; simp only [Matrix.mul_assoc]
    rw [e, rotAngle_conj (rot_off hf)]
    refine (rotAngle_mul_le (isRot_mul (isRot_mul rM (isRot_mul rP (isRot_transpose rP'))) (isRot_transpose rM))
      (isRot_mul rM (isRot_transpose rM'))).trans ?_
    rw [rotAngle_conj rM]
    linarith [ih hp, rotAngle_motion hf (val f.joint) (val' f.joint)]

/-- the positions differ by at most `moving` -/
theorem pos_pathT_sub_le (val val' : Joint → ℝ) {p : List Frame} (h : ∀ f ∈ p, RigidFrame f) :
    vlen (posPart (pathT val p) - posPart (pathT val' p)) ≤ moving val val' p := by
  induction p with
  | nil => simp [pathT, moving, vlen]
  | cons f p ih =>
    have hf := h f (by simp)
    have hp : ∀ g ∈ p, RigidFrame g := fun g hg => h g (by simp [hg])
    rw [posPart_pathT_cons val hf hp, posPart_pathT_cons val' hf hp]
    have e : rotPart (f.link.offset.getD 1 * f.joint.offset.getD 1) *ᵥ beyond val f p +
        posPart (f.link.offset.getD 1 * f.joint.offset.getD 1) -
        (rotPart (f.link.offset.getD 1 * f.joint.offset.getD 1) *ᵥ beyond val' f p +
        posPart (f.link.offset.getD 1 * f.joint.offset.getD 1)) =
        rotPart (f.link.offset.getD 1 * f.joint.offset.getD 1) *ᵥ (beyond val f p - beyond val' f p) := by
      rw [Matrix.mulVec_sub]; abel
    rw [e, vlen_rot (rot_off hf), moving]
    have hih := ih hp
    set P := posPart (pathT val p) with hP
    set P' := posPart (pathT val' p) with hP'
    unfold beyond motion
    rw [← hP, ← hP']
    cases ht : f.joint.jtype with
    | fixed =>
      have : rotPart (1 : M4) = 1 := by rw [← mkHom_one, rotPart_mkHom]
      simp only [this, Matrix.one_mulVec, add_sub_add_right_eq_sub, add_zero]
      exact hih
    | prismatic =>
      simp only [rotPart_mkHom, posPart_mkHom, Matrix.one_mulVec]
      have e2 : P + val f.joint • f.joint.axis - (P' + val' f.joint • f.joint.axis) =
          (P - P') + (val f.joint - val' f.joint) • f.joint.axis := by rw [sub_smul]; abel
      rw [e2]
      refine (vlen_add_le _ _).trans ?_
      rw [vlen_smul, vlen_unit (hf.axis (by simp [Moving, ht])), mul_one]
      linarith
    | revolute =>
      have hU := hf.axis (by simp [Moving, ht])
      simp only [rotPart_mkHom, posPart_mkHom, add_zero]
      have e2 : rotAbout f.joint.axis (val f.joint) *ᵥ P - rotAbout f.joint.axis (val' f.joint) *ᵥ P' =
          rotAbout f.joint.axis (val' f.joint) *ᵥ (P - P') +
          (rotAbout f.joint.axis (val f.joint) *ᵥ P - rotAbout f.joint.axis (val' f.joint) *ᵥ P) := by
        rw [Matrix.mulVec_sub]; abel
      rw [e2]
      refine (vlen_add_le _ _).trans ?_
      rw [vlen_rot (isRot_rotAbout hU _)]
      have h1 := vlen_rotAbout_sub_le hU (val f.joint) (val' f.joint) P
      have h2 := pos_le_armLen val hp
      have h3 : |val f.joint - val' f.joint| * vlen P ≤ |val f.joint - val' f.joint| * armLen val p :=
        mul_le_mul_of_nonneg_left h2 (abs_nonneg _)
      linarith

/-- C110: between any two sets of joint values the end of a serial chain turns by at most the sum of the changes of the
revolute joints, and moves by at most the changes of the prismatic joints plus, for each revolute joint, its change times the
length of the arm beyond it. -/
theorem C110_serial {root rf fe : Frame} {rootName : Name} {p : List Frame} (h : WF root) (hr : RigidTree root)
    (hs : StartsAt root rf rootName) (hp : IsPath rf p) (hl : p.getLast? = some fe)
    {B : ℕ} (th th' : List (Fin B → ℝ)) (hth : th.length = (pathJoints p).length) (hth' : th'.length = (pathJoints p).length) :
    ∃ s T T', SerialChain.init root fe.name rootName = .ok s ∧ s.fkEnd (.tensor B th) = .ok ⟨B, T⟩ ∧
      s.fkEnd (.tensor B th') = .ok ⟨B, T'⟩ ∧ ∀ b b',
      rotAngle (rotPart (T b) * (rotPart (T' b'))ᵀ) ≤ turning (pathVal p th b) (pathVal p th' b') p.tail ∧
      vlen (posPart (T b) - posPart (T' b')) ≤ moving (pathVal p th b) (pathVal p th' b') p.tail := by
  obtain ⟨s, h1, h2⟩ := serial_pose h hs hp hl th hth
  obtain ⟨s', h1', h2'⟩ := serial_pose h hs hp hl th' hth'
  rw [h1] at h1'
  obtain rfl : s = s' := by simpa using h1'
  have hR := path_tail_rigid hr hs.1 hp
  exact ⟨s, _, _, h1, h2, h2', fun b b' => ⟨rotAngle_pathT _ _ hR, pos_pathT_sub_le _ _ hR⟩⟩

/-- C110 for every frame of a tree -/
theorem C110_tree {root : Frame} (h : WF root) (hr : RigidTree root)
    {B : ℕ} (th th' : List (Fin B → ℝ)) (hth : th.length = (movingJoints root).length) (hth' : th'.length = (movingJoints root).length) :
    ∃ d d', (Chain.init root).forwardKinematics th = .ok d ∧ (Chain.init root).forwardKinematics th' = .ok d' ∧
      ∀ p f, IsPath root p → p.getLast? = some f → ∃ T T', d.get? f.name = some T ∧ d'.get? f.name = some T' ∧ ∀ b b',
        rotAngle (rotPart (T b) * (rotPart (T' b'))ᵀ) ≤ turning (colVal root th b) (colVal root th' b') p ∧
        vlen (posPart (T b) - posPart (T' b')) ≤ moving (colVal root th b) (colVal root th' b') p := by
  obtain ⟨d, hd, -, hp⟩ := C01_fk_is_path_product root h th hth
  obtain ⟨d', hd', -, hp'⟩ := C01_fk_is_path_product root h th' hth'
  refine ⟨d, d', hd, hd', fun p f hpath hl => ?_⟩
  obtain ⟨T, h1, h2⟩ := hp p f hpath hl
  obtain ⟨T', h1', h2'⟩ := hp' p f hpath hl
  have hR : ∀ f ∈ p, RigidFrame f := fun f hf => hr.frame (isPath_mem hpath f hf)
  refine ⟨T, T', h1, h1', fun b b' => ?_⟩
  rw [h2 b, h2' b']
  exact ⟨rotAngle_pathT _ _ hR, pos_pathT_sub_le _ _ hR⟩

/-- without prismatic joints: the end moves by at most the total turning times the length of the arm -/
theorem C110_revolute {p : List Frame} (h : ∀ f ∈ p, f.joint.jtype ≠ .prismatic) (val val' : Joint → ℝ) :
    moving val val' p ≤ turning val val' p * (p.map linkLen).sum := by
  induction p with
  | nil => simp [moving, turning]
  | cons f p ih =>
    have hp : ∀ f ∈ p, f.joint.jtype ≠ .prismatic := fun g hg => h g (by simp [hg])
    have hih := ih hp
    have ht : 0 ≤ turning val val' p := List.sum_nonneg fun x hx => by
      obtain ⟨g, -, rfl⟩ := List.mem_map.1 hx
      split
      · exact abs_nonneg _
      · exact le_rfl
    have hs : 0 ≤ (p.map linkLen).sum := List.sum_nonneg fun x hx => by
      obtain ⟨g, -, rfl⟩ := List.mem_map.1 hx
      exact linkLen_nonneg g
    rw [moving, turning_cons, List.map_cons, List.sum_cons, armLen_rigid hp]
    have hf := h f (by simp)
    have hl := linkLen_nonneg f
    cases hj : f.joint.jtype with
    | prismatic => exact absurd hj hf
    | fixed => simp; nlinarith
    | revolute => simp; nlinarith [abs_nonneg (val f.joint - val' f.joint)]

/-! ### a planar arm with two links of length 2 and 1 -/

/-- base, upper arm, forearm, hand -/
noncomputable def twoLink : Frame :=
  let j1 : Joint := { name := some ['j', '1'], jtype := .revolute, axis := ![0, 0, 1] }
  let j2 : Joint := { name := some ['j', '2'], jtype := .revolute, axis := ![0, 0, 1], offset := some (mkHom 1 ![2, 0, 0]) }
  let j3 : Joint := { name := some ['j', '3'], jtype := .fixed, axis := ![0, 0, 1], offset := some (mkHom 1 ![1, 0, 0]) }
  .mk ['b', 'a', 's', 'e'] {} {} [.mk ['u', 'p', 'p', 'e', 'r'] {} j1 [.mk ['f', 'o', 'r', 'e'] {} j2 [.mk ['h', 'a', 'n', 'd'] {} j3 []]]]

theorem twoLink_wf : WF twoLink := by
  constructor
  · simp [twoLink, preorder, preorderL, Frame.name]
  · simp [twoLink, preorder, preorderL, Frame.name]
  · simp [twoLink, movingJoints, preorder, preorderL, Frame.joint, Moving]

theorem twoLink_rigid : RigidTree twoLink := by
  constructor
  · simp [twoLink, preorder, preorderL, Frame.link]
  · simp [twoLink, preorder, preorderL, Frame.joint]
    exact ⟨isRigid_mkHom isRot_one _, isRigid_mkHom isRot_one _⟩
  · simp [twoLink, preorder, preorderL, Frame.joint, Moving, IsUnitV]

/-- the path to the hand -/
noncomputable def twoLinkPath : List Frame :=
  [twoLink, twoLink.children[0], twoLink.children[0].children[0], twoLink.children[0].children[0].children[0]]

theorem twoLinkPath_isPath : IsPath twoLink twoLinkPath :=
  IsPath.snoc [twoLink, _] _ _ (IsPath.snoc [twoLink] _ _ (IsPath.snoc [] _ _ IsPath.single (by simp)) (by simp)) (by simp)

theorem twoLink_lens : twoLinkPath.tail.map linkLen = [0, 2, 1] := by
  have h2 : Real.sqrt (2 ^ 2 : ℝ) = 2 := Real.sqrt_sq (by norm_num)
  have h0 : vlen (posPart (1 : M4)) = 0 := by rw [← mkHom_one, posPart_mkHom]; simp [vlen]
  simp [twoLinkPath, twoLink, linkLen, Frame.children, Frame.link, Frame.joint, vlen, h2]
  simpa [vlen] using h0

/-- A target at distance 4 from the arm, and one at distance 1/2, are never reported as converged. -/
example (target : M4) (ht : IsRigid target) (hfar : vlen (posPart target) = 4 ∨ vlen (posPart target) = 1 / 2) :
    ∃ (s : SerialChain) (ev : Eval 1 2), SerialChain.init twoLink ['h', 'a', 'n', 'd'] = .ok s ∧
      Realises s (fun _ => target) 1e-9 0 none ev ∧
      ∀ (p : IKParams 2), p.posTol ≤ 1 / 4 → ∀ (R : ℕ) (q0 : Fin 1 → Fin R → QRow 2), (p.solve ev q0).convAny 0 = false := by
  have hs : StartsAt twoLink twoLink [] := ⟨by rw [preorder_eq]; simp, .inl ⟨rfl, rfl⟩⟩
  have hd : 2 = (pathJoints twoLinkPath).length := by
    simp [twoLinkPath, twoLink, pathJoints, Frame.children, Frame.joint, Moving]
  obtain ⟨s, ev, h1, h2⟩ := realises_exists twoLink twoLink _ [] twoLinkPath twoLink_wf hs twoLinkPath_isPath rfl hd
    (N := 1) (fun _ => target) 1e-9 0 none
  refine ⟨s, ev, h1, h2, fun p hp R q0 => ?_⟩
  refine (C109_unreachable twoLink_wf twoLink_rigid hs twoLinkPath_isPath rfl ?_ hd (fun _ => ht) h1 h2.reportsError p q0 0 ?_).2
  · simp [twoLinkPath, twoLink, Frame.children, Frame.joint]
  · rw [twoLink_lens]
    rcases hfar with h | h
    · left; rw [h]; norm_num; linarith
    · right
      refine ⟨twoLink.children[0].children[0], by simp [twoLinkPath], ?_⟩
      have : linkLen (twoLink.children[0].children[0]) = 2 := by
        have := twoLink_lens
        simp only [twoLinkPath, List.tail_cons, List.map_cons, List.map_nil, List.cons.injEq, and_true] at this
        exact this.2.1
      rw [h, this]; norm_num; linarith

/-- the bound on the distance is attained when the arm is stretched out -/
example : ∃ s T, SerialChain.init twoLink ['h', 'a', 'n', 'd'] = .ok s ∧
    s.fkEnd (.tensor 1 [fun _ => 0, fun _ => 0]) = .ok ⟨1, T⟩ ∧ vlen (posPart (T 0)) = (twoLinkPath.tail.map linkLen).sum := by
  have hs : StartsAt twoLink twoLink [] := ⟨by rw [preorder_eq]; simp, .inl ⟨rfl, rfl⟩⟩
  obtain ⟨s, h1, h2⟩ := serial_pose twoLink_wf hs twoLinkPath_isPath (rfl : _ = some twoLinkPath[3]) (B := 1) [fun _ => 0, fun _ => 0]
    (by simp [twoLinkPath, twoLink, pathJoints, Frame.children, Frame.joint, Moving])
  refine ⟨s, _, h1, h2, ?_⟩
  have hv : ∀ j, pathVal twoLinkPath (B := 1) [fun _ => 0, fun _ => 0] 0 j = 0 := by
    intro j
    unfold pathVal
    generalize List.idxOf j.name ((pathJoints twoLinkPath).map Joint.name) = k
    rcases k with _ | _ | k <;> rfl
  have hz : ∀ k, rotAbout k 0 = 1 := by
    intro k; rw [← axisAndAngleToMatrix33_eq_rotAbout, axisAndAngle_zero]
  have e : pathT (pathVal twoLinkPath (B := 1) [fun _ => 0, fun _ => 0] 0) twoLinkPath.tail = mkHom 1 ![3, 0, 0] := by
    rw [show pathVal twoLinkPath (B := 1) [fun _ => 0, fun _ => 0] 0 = fun _ => 0 from funext hv]
    simp [pathT, twoLinkPath, twoLink, localT, motion, Frame.children, Frame.link, Frame.joint, hz, mkHom_one, mkHom_mul]
    norm_num
  simp only [e, posPart_mkHom, twoLink_lens]
  have h3 : Real.sqrt (3 ^ 2 : ℝ) = 3 := Real.sqrt_sq (by norm_num)
  simp [vlen, h3]
  norm_num

/-- turning the shoulder of the stretched arm by `a` moves the hand by at most `3 * |a|` -/
example (a : ℝ) : ∃ s T T', SerialChain.init twoLink ['h', 'a', 'n', 'd'] = .ok s ∧
    s.fkEnd (.tensor 1 [fun _ => a, fun _ => 0]) = .ok ⟨1, T⟩ ∧ s.fkEnd (.tensor 1 [fun _ => 0, fun _ => 0]) = .ok ⟨1, T'⟩ ∧
      vlen (posPart (T 0) - posPart (T' 0)) ≤ 3 * |a| := by
  have hs : StartsAt twoLink twoLink [] := ⟨by rw [preorder_eq]; simp, .inl ⟨rfl, rfl⟩⟩
  have hlen : (pathJoints twoLinkPath).length = 2 := by
    simp [twoLinkPath, twoLink, pathJoints, Frame.children, Frame.joint, Moving]
  obtain ⟨s, T, T', h1, h2, h3, h4⟩ := C110_serial twoLink_wf twoLink_rigid hs twoLinkPath_isPath (rfl : _ = some twoLinkPath[3]) (B := 1)
    [fun _ => a, fun _ => 0] [fun _ => 0, fun _ => 0] hlen.symm hlen.symm
  refine ⟨s, T, T', h1, h2, h3, (h4 0 0).2.trans ?_⟩
  refine (C110_revolute (by simp [twoLinkPath, twoLink, Frame.children, Frame.joint]) _ _).trans ?_
  rw [twoLink_lens]
  have : turning (pathVal twoLinkPath (B := 1) [fun _ => a, fun _ => 0] 0) (pathVal twoLinkPath (B := 1) [fun _ => 0, fun _ => 0] 0)
      twoLinkPath.tail = |a| := by
    simp [turning, twoLinkPath, twoLink, Frame.children, Frame.joint, pathVal, pathJoints, Moving, List.idxOf_cons]
  rw [this]; norm_num
  linarith

end PK
