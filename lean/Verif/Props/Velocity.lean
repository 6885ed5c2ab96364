import Verif.Lemmas.Total

/-!
# C90: the Jacobian maps joint velocities to the velocity of the end effector
-/

namespace PK
open Spec Matrix

/-- the end pose of a serial chain moves with the twist `J * qd` -/
theorem velocity_core {rf : Frame} {rest : List Frame} (hws : WF (serialRoot rf rest)) (hrs : RigidTree (serialRoot rf rest))
    {B : ℕ} (th : ℝ → List (Fin B → ℝ)) (hth : ∀ t, (th t).length = (pathJoints (rf :: rest)).length) (t0 : ℝ) (b : Fin B) (qd : ℕ → ℝ)
    (hq : ∀ k < (pathJoints (rf :: rest)).length, HasDerivAt (fun t => ((th t).getD k fun _ => 0) b) (qd k) t0) :
    HasTwistAt (fun t => poseAt (serialRoot rf rest) (th t) (posOf (serialRoot rf rest) (lastName rf rest)) b)
      ![jacTimes (jacCols rf rest (th t0)) b qd 0, jacTimes (jacCols rf rest (th t0)) b qd 1, jacTimes (jacCols rf rest (th t0)) b qd 2]
      ![jacTimes (jacCols rf rest (th t0)) b qd 3, jacTimes (jacCols rf rest (th t0)) b qd 4, jacTimes (jacCols rf rest (th t0)) b qd 5] t0 := by
  set n := (pathJoints (rf :: rest)).length with hn
  obtain ⟨fl, hfl, hfn, hfm⟩ := exists_last rf rest
  have hpp := serial_path rf rest
  -- the pose as a function of the row
  set F : (Fin n → ℝ) → M4 := fun q => pathT (fun j => look q (column (serialRoot rf rest) j)) (serialRoot rf rest :: serialNest rest) with hF
  have hpose : ∀ t' : List (Fin B → ℝ), t'.length = n →
      poseAt (serialRoot rf rest) t' (posOf (serialRoot rf rest) (lastName rf rest)) b = F (rowOf n t' b) := by
    intro t' ht'
    rw [← hfn, hws.pose_path t' hpp hfl b]
    simp only [hF]
    congr 1
    funext j
    exact colVal_look t' ht' b j
  have hdF : ∀ i l, Differentiable ℝ (fun q => F q i l) := by
    intro i l
    refine differentiable_pathT _ (fun f hf mf => ?_) i l
    exact hrs.axis f (serialRoot_preorder rf rest ▸ hf) mf
  have hjl : (jacCols rf rest (th t0)).length = n := by
    rw [jacCols, List.length_map, dofFrames_length]
  -- partial derivatives
  have hpart : ∀ k : Fin n, HasTwistAt (fun x => F (Function.update (rowOf n (th t0) b) k x))
      (fun i => ((jacCols rf rest (th t0)).getD k fun _ _ => 0) b ⟨i.val, by omega⟩)
      (fun i => ((jacCols rf rest (th t0)).getD k fun _ _ => 0) b ⟨3 + i.val, by omega⟩) (rowOf n (th t0) b k) := by
    intro k
    have hk : k.val < (dofFrames rf rest).length := by rw [dofFrames_length]; exact k.2
    have h1 := serial_twist hws hrs (th t0) (hth t0) (List.getElem?_eq_getElem hk) b 1 isRigid_one.2
    simp only [Matrix.mul_one] at h1
    have e : ∀ x, poseAt (serialRoot rf rest) (setEntry (th t0) k.val b x) (posOf (serialRoot rf rest) (lastName rf rest)) b =
        F (Function.update (rowOf n (th t0) b) k x) := by
      intro x
      rw [hpose _ (by rw [setEntry_length, hth]), rowOf_setEntry (th t0) (hth t0)]
    simp only [e] at h1
    convert h1 using 1
    · ext i; fin_cases i <;> simp [jacCols, jcol, List.getD, List.getElem?_map, List.getElem?_eq_getElem hk]
    · ext i; fin_cases i <;> simp [jacCols, jcol, List.getD, List.getElem?_map, List.getElem?_eq_getElem hk]
    · rfl
  have hsum : ∀ i : Fin 6, jacTimes (jacCols rf rest (th t0)) b qd i =
      ∑ k : Fin n, qd k * ((jacCols rf rest (th t0)).getD k fun _ _ => 0) b i := by
    intro i
    rw [jacTimes, hjl, Finset.sum_range]
    exact Finset.sum_congr rfl fun k _ => mul_comm _ _
  have hQ : ∀ k : Fin n, HasDerivAt (fun t => rowOf n (th t) b k) (qd k) t0 := fun k => hq k k.2
  simp only [hpose _ (hth _)]
  constructor
  · intro i
    have := hasDerivAt_along (hdF i.castSucc 3) hQ (fun k => (hpart k).1 i)
    convert this using 1
    fin_cases i <;> exact hsum _
  · intro i j
    have := hasDerivAt_along (hdF i.castSucc j.castSucc) hQ (fun k => (hpart k).2 i j)
    convert this using 1
    simp only [Function.update_eq_self, Matrix.mul_apply, hat_eq, Fin.sum_univ_three, hsum]
    fin_cases i <;> simp <;> simp only [Finset.sum_mul, ← Finset.sum_neg_distrib, ← Finset.sum_add_distrib] <;>
      refine Finset.sum_congr rfl fun k _ => ?_ <;> ring

/-- C90: when all joints move at once, along any curve of joint values, the end effector moves with linear velocity
`(J * qd)[:3]` and angular velocity `(J * qd)[3:]`, where `J` is the Jacobian at the current values. -/
theorem C90_velocity (root rf fe : Frame) (rootName : Name) (p : List Frame) (h : WF root)
    (hr : RigidTree root) (hs : StartsAt root rf rootName) (hp : IsPath rf p) (hl : p.getLast? = some fe)
    {B : ℕ} (th : ℝ → List (Fin B → ℝ)) (hth : ∀ t, (th t).length = (pathJoints p).length) (t0 : ℝ) (b : Fin B) (qd : ℕ → ℝ)
    (hq : ∀ k < (pathJoints p).length, HasDerivAt (fun t => ((th t).getD k fun _ => 0) b) (qd k) t0) :
    ∃ s J, ∃ T : ℝ → Fin B → M4, SerialChain.init root fe.name rootName = .ok s ∧ s.jacobian (.tensor B (th t0)) = .ok ⟨B, J, T t0⟩ ∧
      (∀ t, s.fkEnd (.tensor B (th t)) = .ok ⟨B, T t⟩) ∧
      HasTwistAt (fun t => T t b) ![jacTimes J b qd 0, jacTimes J b qd 1, jacTimes J b qd 2]
        ![jacTimes J b qd 3, jacTimes J b qd 4, jacTimes J b qd 5] t0 := by
  obtain ⟨rest, rfl⟩ := isPath_head hp
  have hws := serialRoot_wf (h.sub hs.1) hp
  have hrs := serialRoot_rigid (hr.sub hs.1) hp
  refine ⟨serialOf rf rest, jacCols rf rest (th t0),
    fun t => poseAt (serialRoot rf rest) (th t) (posOf (serialRoot rf rest) (lastName rf rest)),
    serialInit_ok h hs hp hl rfl, ?_, fun t => serial_fkEnd hws (th t) (hth t), velocity_core hws hrs th hth t0 b qd hq⟩
  · unfold SerialChain.jacobian
    simp only [jacobianTensor_ok hws (th t0) (hth t0), ok_bind]
    rfl

/-- straight lines in joint space are such curves -/
theorem line_curve {B n : ℕ} (q v : Fin n → ℝ) (b : Fin B) (k : ℕ) (hk : k < n) (t0 : ℝ) :
    HasDerivAt (fun t => ((List.ofFn fun j (_ : Fin B) => q j + t * v j).getD k fun _ => 0) b) (v ⟨k, hk⟩) t0 := by
  have e : ∀ t : ℝ, ((List.ofFn fun j (_ : Fin B) => q j + t * v j).getD k fun _ => 0) b = q ⟨k, hk⟩ + t * v ⟨k, hk⟩ := by
    intro t; simp [List.getD, hk]
  simp only [e]
  simpa using ((hasDerivAt_id t0).mul_const (v ⟨k, hk⟩)).const_add (q ⟨k, hk⟩)

example (root rf fe : Frame) (rootName : Name) (p : List Frame) (h : WF root)
    (hr : RigidTree root) (hs : StartsAt root rf rootName) (hp : IsPath rf p) (hl : p.getLast? = some fe)
    (q v : Fin (pathJoints p).length → ℝ) :
    ∃ s J, ∃ T : ℝ → Fin 1 → M4, SerialChain.init root fe.name rootName = .ok s ∧
      s.jacobian (.tensor 1 (List.ofFn fun j _ => q j + 0 * v j)) = .ok ⟨1, J, T 0⟩ ∧
      HasDerivAt (fun t => T t 0 0 3) (jacTimes J 0 (fun k => if hk : k < (pathJoints p).length then v ⟨k, hk⟩ else 0) 0) 0 := by
  obtain ⟨s, J, T, h1, h2, -, h4⟩ := C90_velocity root rf fe rootName p h hr hs hp hl (B := 1)
    (fun t => List.ofFn fun j _ => q j + t * v j) (by simp) 0 0 (fun k => if hk : k < (pathJoints p).length then v ⟨k, hk⟩ else 0)
    (fun k hk => by rw [dif_pos hk]; exact line_curve q v 0 k hk 0)
  exact ⟨s, J, T, h1, h2, h4.1 0⟩

end PK
