import Verif.Lemmas.TapeT3Build
import Verif.Lemmas.Bzip
import Verif.Props.Gradients

/-!
# Backpropagation through transforms (C120)

`transform3d.py` l.91-115 documents that gradients flow through transforms to the parameters they were constructed from.
-/

namespace PK
open AD Spec Sum
open scoped Classical

noncomputable section

variable {ι : Type} {P : ℕ}

/-! ## Calls and their results -/

/-- the rows of a result, one matrix of points for every element of the batch -/
def Points.toList : Points P → List (Matrix (Fin P) (Fin 3) ℝ)
  | .flat x => [x]
  | .batch xs => xs
  | .other => []

/-- `t.transform_points(points)` -/
def callPoints (t : TExpr ι) (pts : PointsS ι P) (x : ι → ℝ) : Except Err (Points P) := do
  (← t.build x).transformPoints none (pts.at x)

/-- `t.transform_normals(normals)` -/
def callNormals (t : TExpr ι) (pts : PointsS ι P) (x : ι → ℝ) : Except Err (Points P) := do
  (← t.build x).transformNormals (pts.at x)

/-- an entry of the returned points; 0 if the call raised -/
def pointEntry {n : ℕ} (r : Except Err (Points P)) (k : Fin n × (Fin P × Fin 3)) : ℝ :=
  match r with
  | .ok y => (y.toList.getD k.1 0) k.2.1 k.2.2
  | .error _ => 0

/-- an entry of `t.get_matrix()`; 0 if building `t` raised -/
def matrixEntry {n : ℕ} (r : Except Err T3) (k : Fin n × E4) : ℝ :=
  match r with
  | .ok t => (t.mats.getD k.1 0) k.2.1 k.2.2
  | .error _ => 0

/-! ## Inputs at which every step is differentiable -/

/-- no quaternion is zero -/
def RotRegular (x : ι → ℝ) : RotS ι → Prop
  | .quat q => ∃ i, (q i).at x ≠ 0
  | .quats qs => ∀ q ∈ qs, ∃ i, (q i).at x ≠ 0
  | _ => True

/-- Matrices that are passed in are affine (last row `0 0 0 1`), quaternions are not zero, and factors of a `Scale` object that is inverted are not
zero.  Positions, angles, rotation matrices and other factors are arbitrary. -/
def TRegular (x : ι → ℝ) : TExpr ι → Prop
  | .init m _ rot _ => (∀ ms, initMatrix (m.at x) = .ok ms → ∀ M ∈ ms, ∀ j, M 3 j = ![0, 0, 0, 1] j) ∧ ∀ r, rot = some r → RotRegular x r
  | .rotate r _ => RotRegular x r
  | .compose s t | .stack s t => TRegular x s ∧ TRegular x t
  | .inverse t => TRegular x t ∧ ∀ T, t.build x = .ok T → T.kind = .scale → ∀ M ∈ T.mats, ∀ i, M i i ≠ 0
  | .get t _ => TRegular x t
  | _ => True

namespace AD

theorem quat_sq_ne {v : Fin 4 → ℝ} (h : ∃ i, v i ≠ 0) : v 0 * v 0 + v 1 * v 1 + v 2 * v 2 + v 3 * v 3 ≠ 0 := by
  obtain ⟨i, hi⟩ := h
  have hp := mul_self_pos.2 hi
  have h0 := mul_self_nonneg (v 0)
  have h1 := mul_self_nonneg (v 1)
  have h2 := mul_self_nonneg (v 2)
  have h3 := mul_self_nonneg (v 3)
  intro hz
  fin_cases i <;> simp only [Fin.zero_eta, Fin.mk_one, Fin.reduceFinMk] at hp <;> linarith

theorem RotS.regAt_tape {x : ι → ℝ} {q : RotS ι} (h : RotRegular x q) : q.tape.1.RegAt x := by
  have hs : ∀ {α β : Type} [Fintype α] (op : Prog α β) (_ : op.Smooth) (l : List (α → Src ι)), ((Rec.src l).map op).RegAt x :=
    fun op ho l => Rec.regAt_map (Rec.regAt_src _ _) fun v _ => op.regAt_of_smooth ho v
  cases q with
  | mat r => exact Rec.regAt_src _ _
  | mats rs => exact Rec.regAt_src _ _
  | quat q =>
    refine Rec.regAt_map (Rec.regAt_src _ _) fun v hv => ?_
    rw [Rec.vals_src] at hv
    obtain rfl := List.mem_singleton.1 hv
    exact regAt_q2m (quat_sq_ne h)
  | quats qs =>
    refine Rec.regAt_map (Rec.regAt_src _ _) fun v hv => ?_
    rw [Rec.vals_src] at hv
    obtain ⟨q, hq, rfl⟩ := List.mem_map.1 hv
    exact regAt_q2m (quat_sq_ne (h q hq))
  | angles e => exact hs eulerP smooth_eulerP _
  | anglesBatch es =>
    rcases es with _ | ⟨a, _ | ⟨b, _ | ⟨c, _ | ⟨d, l⟩⟩⟩⟩
    · exact hs eulerP smooth_eulerP _
    · exact hs eulerP smooth_eulerP _
    · exact hs eulerP smooth_eulerP _
    · exact Rec.regAt_src _ _
    · exact hs eulerP smooth_eulerP _

theorem regAt_inverse {x : ι → ℝ} {k : TKind} {r : Rec ι E4} (hr : r.RegAt x)
    (h : k = .scale → ∀ v ∈ r.vals x, ∀ i, v (i, i) ≠ 0) : (r.map (inverseP k)).RegAt x := by
  refine Rec.regAt_map hr fun v hv => ?_
  cases k with
  | plain => exact Prog.regAt_of_smooth _ smooth_invertP _
  | translate => exact Prog.regAt_of_smooth _ smooth_invertTranslateP _
  | scale => exact regAt_invertScaleP (h rfl v hv)
  | rotate => exact trivial

theorem TExpr.regAt_tape {x : ι → ℝ} : ∀ {e : TExpr ι}, TRegular x e → ∀ {k : TKind} {r : Rec ι E4}, e.tape = .ok (k, r) → r.RegAt x := by
  intro e
  induction e with
  | init m pos rot d =>
    intro h k r hr
    simp only [TExpr.tape] at hr
    split at hr <;> first | cases hr | skip
    rename_i r1 h1
    split at hr <;> first | cases hr | skip
    rename_i r2 h2
    split at hr <;> first | cases hr | skip
    rename_i r3 h3
    have g1 : r1.RegAt x := by
      cases m <;> simp only [MatS.tape] at h1 <;> cases h1 <;> exact Rec.regAt_src _ _
    have g2 : r2.RegAt x := by
      rcases pos with _ | (p | ps)
      · cases h2; exact g1
      · exact Rec.catLast_regAt h2 g1 (Rec.regAt_src _ _) fun _ _ _ _ => Prog.regAt_of_smooth _ smooth_withPosP _
      · exact Rec.catLast_regAt h2 (Rec.regAt_repeatTo g1) (Rec.regAt_src _ _) fun _ _ _ _ => Prog.regAt_of_smooth _ smooth_withPosP _
    rcases rot with _ | q
    · cases h3; exact g2
    · exact Rec.catLast_regAt h3 (RotS.regAt_tape (h.2 q rfl)) (Rec.regAt_repeatTo g2) fun _ _ _ _ => Prog.regAt_of_smooth _ smooth_withRotP _
  | translate a b c d =>
    intro h k r hr
    simp only [TExpr.tape] at hr
    split at hr <;> cases hr
    exact Rec.regAt_map (Rec.regAt_src _ _) fun v _ => Prog.regAt_of_smooth _ smooth_translateP _
  | scale a b c d =>
    intro h k r hr
    simp only [TExpr.tape] at hr
    split at hr <;> cases hr
    exact Rec.regAt_map (Rec.regAt_src _ _) fun v _ => Prog.regAt_of_smooth _ smooth_scaleP _
  | rotate q d =>
    intro h k r hr
    cases hr
    exact Rec.regAt_map (RotS.regAt_tape h) fun v _ => Prog.regAt_of_smooth _ smooth_rotateP _
  | rotateAxisAngle angle axis degrees =>
    intro h k r hr
    simp only [TExpr.tape] at hr
    split at hr <;> first | cases hr | skip
    split at hr <;> first | cases hr | skip
    split at hr <;> cases hr
    exact Rec.regAt_map (Rec.regAt_map (Rec.regAt_src _ _) fun v _ => Prog.regAt_of_smooth _ (smooth_axisAngleP _ _) _)
      fun v _ => Prog.regAt_of_smooth _ smooth_rotateP _
  | compose s t hs ht =>
    intro h k r hr
    simp only [TExpr.tape] at hr
    split at hr <;> first | cases hr | skip
    rename_i h1
    split at hr <;> first | cases hr | skip
    rename_i h2
    split at hr <;> first | cases hr | skip
    rename_i h3
    exact Rec.bzip_regAt h3 (hs h.1 h1) (ht h.2 h2) fun _ _ _ _ => Prog.regAt_of_smooth _ (smooth_mulP 4) _
  | inverse t ht =>
    intro h k r hr
    have hm := TExpr.build_match x t
    simp only [TExpr.tape] at hr
    split at hr <;> cases hr
    rename_i k' r' h1
    rw [h1] at hm
    cases hb : t.build x with
    | error e => rw [hb] at hm; exact hm.elim
    | ok T =>
      rw [hb] at hm
      refine regAt_inverse (ht h.1 h1) fun hk v hv i => ?_
      have := h.2 T hb (hm.1.trans hk) (toM4 v) (by rw [hm.2]; exact List.mem_map_of_mem hv) i
      exact this
  | stack s t hs ht =>
    intro h k r hr
    simp only [TExpr.tape] at hr
    split at hr <;> first | cases hr | skip
    rename_i h1
    split at hr <;> first | cases hr | skip
    rename_i h2
    exact Rec.regAt_append (hs h.1 h1) (ht h.2 h2)
  | get t i ht =>
    intro h k r hr
    simp only [TExpr.tape] at hr
    split at hr <;> first | cases hr | skip
    rename_i h1
    split at hr <;> cases hr
    exact Rec.regAt_gather (ht h h1)


/-! ### Affine matrices -/

/-- last row `0 0 0 1` -/
def Aff (M : M4) : Prop := ∀ j, M 3 j = ![0, 0, 0, 1] j

theorem Aff.mul {M N : M4} (hM : Aff M) (hN : Aff N) : Aff (M * N) := by
  intro j
  rw [Matrix.mul_apply, Fin.sum_univ_four, hM 0, hM 1, hM 2, hM 3, hN j]
  simp

theorem aff_hom (R : M3) (t : V3) : Aff (hom R t) := by intro j; fin_cases j <;> rfl

theorem catLast_mem {α β γ : Type} {f : α → β → γ} {a : List α} {b : List β} {l : List γ} (h : catLast f a b = .ok l) {c : γ} (hc : c ∈ l) :
    ∃ x ∈ a, ∃ y ∈ b, c = f x y := by
  unfold catLast at h
  split_ifs at h
  simp only [Except.ok.injEq] at h
  subst h
  obtain ⟨i, hi, rfl⟩ := List.getElem_of_mem hc
  exact ⟨_, List.getElem_mem _, _, List.getElem_mem _, List.getElem_zipWith⟩

theorem repeatTo_mem {b : Bool} {n : ℕ} {ms : List M4} {M : M4} (h : M ∈ repeatTo b n ms) : M ∈ ms := by
  unfold repeatTo at h
  split at h
  · split_ifs at h
    · rw [List.mem_replicate] at h; simp [h.2]
    · exact h
  · exact h

/-- the matrices of a transform built from affine matrices are affine; those of a `Rotate` have no translation -/
theorem TExpr.affine {x : ι → ℝ} : ∀ {e : TExpr ι}, TRegular x e → ∀ {t : T3}, e.build x = .ok t →
    ∀ M ∈ t.mats, Aff M ∧ (t.kind = .rotate → ∀ i, M i 3 = ![0, 0, 0, 1] i) := by
  intro e
  induction e with
  | init m pos rot d =>
    intro h t ht M hM
    simp only [TExpr.build, T3.init] at ht
    obtain ⟨m1, h1, ht⟩ := bind_eq_ok.1 ht
    obtain ⟨m2, h2, ht⟩ := bind_eq_ok.1 ht
    obtain ⟨m3, h3, ht⟩ := bind_eq_ok.1 ht
    cases ht
    refine ⟨?_, fun h => by cases h⟩
    have g1 : ∀ M ∈ m1, Aff M := fun M hM => h.1 m1 h1 M hM
    have g2 : ∀ M ∈ m2, Aff M := by
      intro M hM
      rcases pos with _ | (p | ps)
      · cases h2; exact g1 M hM
      · obtain ⟨a, ha, b, hb, rfl⟩ := catLast_mem h2 hM
        intro j; have := g1 a ha j
        fin_cases j <;> simp_all [withPos]
      · obtain ⟨a, ha, b, hb, rfl⟩ := catLast_mem h2 hM
        intro j; have := g1 a (repeatTo_mem ha) j
        fin_cases j <;> simp_all [withPos]
    rcases rot with _ | q
    · cases h3; exact g2 M hM
    · obtain ⟨a, ha, b, hb, rfl⟩ := catLast_mem h3 hM
      intro j; have := g2 b (repeatTo_mem hb) j
      fin_cases j <;> simp_all [withRot]
  | translate a b c d =>
    intro h t ht M hM
    simp only [TExpr.build, T3.mkTranslate] at ht
    obtain ⟨l, h1, ht⟩ := bind_eq_ok.1 ht
    cases ht
    obtain ⟨p, -, rfl⟩ := List.mem_map.1 hM
    exact ⟨aff_hom _ _, fun h => by cases h⟩
  | scale a b c d =>
    intro h t ht M hM
    simp only [TExpr.build, T3.mkScale] at ht
    obtain ⟨l, h1, ht⟩ := bind_eq_ok.1 ht
    cases ht
    obtain ⟨p, -, rfl⟩ := List.mem_map.1 hM
    exact ⟨fun j => by fin_cases j <;> rfl, fun h => by cases h⟩
  | rotate q d =>
    intro h t ht M hM
    cases ht
    obtain ⟨p, -, rfl⟩ := List.mem_map.1 hM
    exact ⟨aff_hom _ _, fun _ i => by fin_cases i <;> rfl⟩
  | rotateAxisAngle angle axis degrees =>
    intro h t ht M hM
    simp only [TExpr.build, T3.mkRotateAxisAngle] at ht
    split at ht <;> first | cases ht | skip
    split at ht <;> first | cases ht | skip
    obtain ⟨l, h1, ht⟩ := bind_eq_ok.1 ht
    cases ht
    obtain ⟨p, -, rfl⟩ := List.mem_map.1 hM
    exact ⟨aff_hom _ _, fun _ i => by fin_cases i <;> rfl⟩
  | compose s t hs ht =>
    intro h T hT M hM
    simp only [TExpr.build] at hT
    obtain ⟨a, h1, hT⟩ := bind_eq_ok.1 hT
    obtain ⟨b, h2, hT⟩ := bind_eq_ok.1 hT
    simp only [T3.compose, List.foldlM_cons, List.foldlM_nil] at hT
    obtain ⟨l, h3, hT⟩ := bind_eq_ok.1 hT
    cases hT
    obtain ⟨l', h4, h3⟩ := bind_eq_ok.1 h3
    cases h3
    obtain ⟨A, hA, B, hB, rfl⟩ := bzip_mem h4 _ hM
    exact ⟨(hs h.1 h1 A hA).1.mul (ht h.2 h2 B hB).1, fun h => by cases h⟩
  | inverse t ht =>
    intro h T hT M hM
    simp only [TExpr.build] at hT
    obtain ⟨a, h1, hT⟩ := bind_eq_ok.1 hT
    cases hT
    refine ⟨?_, fun h => by cases h⟩
    replace hM : M ∈ a.matrixInverse := hM
    have hA := ht h.1 h1
    unfold T3.matrixInverse at hM
    split at hM <;> obtain ⟨A, hAm, rfl⟩ := List.mem_map.1 hM <;> obtain ⟨g1, g2⟩ := hA A hAm <;> intro j <;> have := g1 j
    · fin_cases j <;> simp_all [invertMatrix]
    · fin_cases j <;> simp_all [invertTranslate]
    · fin_cases j <;> simp_all [invertScale]
    · rename_i hk
      exact g2 hk j
  | stack s t hs ht =>
    intro h T hT M hM
    simp only [TExpr.build] at hT
    obtain ⟨a, h1, hT⟩ := bind_eq_ok.1 hT
    obtain ⟨b, h2, hT⟩ := bind_eq_ok.1 hT
    cases hT
    refine ⟨?_, fun h => by cases h⟩
    simp only [T3.stack, List.map_cons, List.map_nil, List.flatten_cons, List.flatten_nil, List.append_nil, List.mem_append] at hM
    rcases hM with hM | hM
    · exact (hs h.1 h1 M hM).1
    · exact (ht h.2 h2 M hM).1
  | get t i ht =>
    intro h T hT M hM
    simp only [TExpr.build] at hT
    obtain ⟨a, h1, hT⟩ := bind_eq_ok.1 hT
    unfold T3.get at hT
    split at hT <;> cases hT
    rename_i m hm
    obtain rfl := List.mem_singleton.1 hM
    exact ⟨(ht h h1 _ (List.mem_of_getElem? hm)).1, fun h => by cases h⟩

/-! ### Results -/

theorem toList_reshapeBack (b : Bool) (l : List (Matrix (Fin P) (Fin 3) ℝ)) : (reshapeBack b l).toList = l := by
  unfold reshapeBack
  split <;> rfl

theorem ptsS_vals (x : ι → ℝ) (l : List (Fin P × Fin 3 → Src ι)) : ((Rec.src l).vals x).map toPts = l.map (ptsAt x) := by
  rw [Rec.vals_src, List.map_map]; rfl

theorem points_match (e : TExpr ι) (pts : PointsS ι P) (x : ι → ℝ) :
    MatchU x toPts (e.points pts) ((callPoints e pts x).map Points.toList) := by
  have hm := TExpr.build_match x e
  unfold TExpr.points callPoints
  revert hm
  generalize e.tape = re
  generalize e.build x = be
  intro hm
  rcases re with er | ⟨k, r⟩ <;> rcases be with er' | t <;> first | exact hm.elim | skip
  · exact hm
  obtain ⟨-, hm⟩ := hm
  cases pts with
  | other => exact rfl
  | flat m =>
    have := Rec.bzip_matchU (pointsP P) (applyPoints none) toPts toM4 toPts toPts_pointsP (.src [m]) r x
    rw [ptsS_vals, ← hm] at this
    simp only [PointsS.tape, ok_bind, PointsS.at, T3.transformPoints]
    cases hr : (Rec.src [m]).bzip (pointsP P) r with
    | error e => cases hb : bzip (applyPoints none) ([m].map (ptsAt x)) t.mats with
      | error e' => rw [hr, hb] at this; simp only [List.map_cons, List.map_nil] at hb; rw [hb]; exact this
      | ok l => rw [hr, hb] at this; exact this.elim
    | ok q => cases hb : bzip (applyPoints none) ([m].map (ptsAt x)) t.mats with
      | error e' => rw [hr, hb] at this; exact this.elim
      | ok l =>
        rw [hr, hb] at this; simp only [List.map_cons, List.map_nil] at hb; rw [hb]
        exact this.trans (toList_reshapeBack _ _).symm
  | batch m =>
    have := Rec.bzip_matchU (pointsP P) (applyPoints none) toPts toM4 toPts toPts_pointsP (.src m) r x
    rw [ptsS_vals, ← hm] at this
    simp only [PointsS.tape, ok_bind, PointsS.at, T3.transformPoints]
    cases hr : (Rec.src m).bzip (pointsP P) r with
    | error e => cases hb : bzip (applyPoints none) (m.map (ptsAt x)) t.mats with
      | error e' => rw [hr, hb] at this; exact this
      | ok l => rw [hr, hb] at this; exact this.elim
    | ok q => cases hb : bzip (applyPoints none) (m.map (ptsAt x)) t.mats with
      | error e' => rw [hr, hb] at this; exact this.elim
      | ok l =>
        rw [hr, hb] at this
        exact this.trans (toList_reshapeBack _ _).symm

theorem normals_match (e : TExpr ι) (pts : PointsS ι P) (x : ι → ℝ) :
    MatchU x toPts (e.normals pts) ((callNormals e pts x).map Points.toList) := by
  have hm := TExpr.build_match x e
  unfold TExpr.normals callNormals
  revert hm
  generalize e.tape = re
  generalize e.build x = be
  intro hm
  rcases re with er | ⟨k, r⟩ <;> rcases be with er' | t <;> first | exact hm.elim | skip
  · exact hm
  replace hm := inverse_mats t k r x hm.1 hm.2
  cases pts with
  | other => exact rfl
  | flat m =>
    have := Rec.bzip_matchU (normalsP P) applyNormals toPts toM4 toPts toPts_normalsP (.src [m]) (r.map (inverseP k)) x
    rw [ptsS_vals, ← hm] at this
    simp only [PointsS.tape, ok_bind, PointsS.at, T3.transformNormals]
    cases hr : (Rec.src [m]).bzip (normalsP P) (r.map (inverseP k)) with
    | error e => cases hb : bzip applyNormals ([m].map (ptsAt x)) t.inverse.mats with
      | error e' => rw [hr, hb] at this; simp only [List.map_cons, List.map_nil] at hb; rw [hb]; exact this
      | ok l => rw [hr, hb] at this; exact this.elim
    | ok q => cases hb : bzip applyNormals ([m].map (ptsAt x)) t.inverse.mats with
      | error e' => rw [hr, hb] at this; exact this.elim
      | ok l =>
        rw [hr, hb] at this; simp only [List.map_cons, List.map_nil] at hb; rw [hb]
        exact this.trans (toList_reshapeBack _ _).symm
  | batch m =>
    have := Rec.bzip_matchU (normalsP P) applyNormals toPts toM4 toPts toPts_normalsP (.src m) (r.map (inverseP k)) x
    rw [ptsS_vals, ← hm] at this
    simp only [PointsS.tape, ok_bind, PointsS.at, T3.transformNormals]
    cases hr : (Rec.src m).bzip (normalsP P) (r.map (inverseP k)) with
    | error e => cases hb : bzip applyNormals (m.map (ptsAt x)) t.inverse.mats with
      | error e' => rw [hr, hb] at this; exact this
      | ok l => rw [hr, hb] at this; exact this.elim
    | ok q => cases hb : bzip applyNormals (m.map (ptsAt x)) t.inverse.mats with
      | error e' => rw [hr, hb] at this; exact this.elim
      | ok l =>
        rw [hr, hb] at this
        exact this.trans (toList_reshapeBack _ _).symm

theorem getD_vals {α δ : Type} (r : Rec ι α) (x : ι → ℝ) (u : (α → ℝ) → δ) (k : Fin r.n) (d : δ) : ((r.vals x).map u).getD k d = u (r.val x k) := by
  have hk : (k : ℕ) < ((r.vals x).map u).length := by simp [Rec.length_vals]
  rw [List.getD_eq_getElem _ _ hk]
  simp only [Rec.vals, List.getElem_map, List.getElem_ofFn]

theorem pointEntry_eq {r : Rec ι (Fin P × Fin 3)} {b : Except Err (Points P)} {x : ι → ℝ} (h : MatchU x toPts (.ok r) (b.map Points.toList))
    (k : Fin r.n × (Fin P × Fin 3)) : r.p.runR x k = pointEntry b k := by
  cases b with
  | error e => exact h.elim
  | ok y =>
    have h : (r.vals x).map toPts = y.toList := h
    simp only [pointEntry, ← h]
    rw [getD_vals]
    rfl

end AD

variable [Fintype ι]

/-- **Gradients of transformed points.**  Let `t` be built by any program of constructors, compositions, inversions, stacking and indexing, and let
`t.transform_points(points)` return.  Every entry of every argument, and every coordinate of the points, may be an entry of a tensor that requires a
gradient; tensors may be shared and broadcast.  Then the backward pass returns finite numbers, the derivative of what the calls return. -/
theorem C120_points (nr : NormRule) (t : TExpr ι) (pts : PointsS ι P) {x : ι → ℝ} (ht : TRegular x t) {y : Points P}
    (hy : callPoints t pts x = .ok y) :
    ∃ r, t.points pts = .ok r ∧ r.n = y.toList.length ∧ ∀ g : Fin r.n × (Fin P × Fin 3) → ℝ,
      r.p.run (up x) = up (pointEntry (callPoints t pts x)) ∧
      ∃ G, r.p.back nr (up x) (up g) = up G ∧ IsVJP (fun x' => pointEntry (callPoints t pts x')) x g G := by
  have hm := points_match t pts
  cases hr : t.points pts with
  | error e => have := hm x; rw [hr, hy] at this; exact this.elim
  | ok r =>
    rw [hr] at hm
    have hl : r.n = y.toList.length := by
      have := hm x
      rw [hy] at this
      have this : (r.vals x).map toPts = y.toList := this
      rw [← this, List.length_map, Rec.length_vals]
    refine ⟨r, rfl, hl, fun g => vjp (Prog.good_of_regAt _ _ ?_ _) fun x' => funext fun k => pointEntry_eq (hm x') k⟩
    unfold TExpr.points at hr
    split at hr <;> first | cases hr | skip
    rename_i k r' h1
    split at hr <;> first | cases hr | skip
    rename_i q h2
    refine Rec.bzip_regAt hr ?_ (TExpr.regAt_tape ht h1) fun a _ b hb => regAt_pointsP fun p => ?_
    · cases pts <;> simp only [PointsS.tape] at h2 <;> cases h2 <;> exact Rec.regAt_src _ _
    · have hb' := TExpr.build_match x t
      rw [h1] at hb'
      cases hbx : t.build x with
      | error e => rw [hbx] at hb'; exact hb'.elim
      | ok T =>
        rw [hbx] at hb'
        have ha := (TExpr.affine ht hbx (toM4 b) (by rw [hb'.2]; exact List.mem_map_of_mem hb)).1
        have h0 : b (3, 0) = 0 := ha 0
        have h1 : b (3, 1) = 0 := ha 1
        have h2 : b (3, 2) = 0 := ha 2
        have h3 : b (3, 3) = 1 := ha 3
        rw [h0, h1, h2, h3]
        simp

/-- **Gradients of transformed normals.**  `transform_normals` inverts the transform, so the factors of a `Scale` object must not be zero. -/
theorem C120_normals (nr : NormRule) (t : TExpr ι) (pts : PointsS ι P) {x : ι → ℝ} (ht : TRegular x (.inverse t)) {y : Points P}
    (hy : callNormals t pts x = .ok y) :
    ∃ r, t.normals pts = .ok r ∧ r.n = y.toList.length ∧ ∀ g : Fin r.n × (Fin P × Fin 3) → ℝ,
      r.p.run (up x) = up (pointEntry (callNormals t pts x)) ∧
      ∃ G, r.p.back nr (up x) (up g) = up G ∧ IsVJP (fun x' => pointEntry (callNormals t pts x')) x g G := by
  have hm := normals_match t pts
  cases hr : t.normals pts with
  | error e => have := hm x; rw [hr, hy] at this; exact this.elim
  | ok r =>
    rw [hr] at hm
    have hl : r.n = y.toList.length := by
      have := hm x
      rw [hy] at this
      have this : (r.vals x).map toPts = y.toList := this
      rw [← this, List.length_map, Rec.length_vals]
    refine ⟨r, rfl, hl, fun g => vjp (Prog.good_of_regAt _ _ ?_ _) fun x' => funext fun k => pointEntry_eq (hm x') k⟩
    unfold TExpr.normals at hr
    split at hr <;> first | cases hr | skip
    rename_i k r' h1
    split at hr <;> first | cases hr | skip
    rename_i q h2
    refine Rec.bzip_regAt hr ?_ (TExpr.regAt_tape ht (k := .plain) (by simp only [TExpr.tape, h1])) fun a _ b hb =>
      Prog.regAt_of_smooth _ (smooth_normalsP P) _
    cases pts <;> simp only [PointsS.tape] at h2 <;> cases h2 <;> exact Rec.regAt_src _ _

/-- **Gradients of the matrix.**  The same for `t.get_matrix()`. -/
theorem C120_matrix (nr : NormRule) (t : TExpr ι) {x : ι → ℝ} (ht : TRegular x t) {T : T3} (hT : t.build x = .ok T) :
    ∃ r, t.tape = .ok (T.kind, r) ∧ r.n = T.mats.length ∧ ∀ g : Fin r.n × E4 → ℝ,
      r.p.run (up x) = up (matrixEntry (t.build x)) ∧
      ∃ G, r.p.back nr (up x) (up g) = up G ∧ IsVJP (fun x' => matrixEntry (t.build x')) x g G := by
  have hm := fun x => TExpr.build_match x t
  cases hr : t.tape with
  | error e => have := hm x; rw [hr, hT] at this; exact this.elim
  | ok q =>
    obtain ⟨k, r⟩ := q
    rw [hr] at hm
    have h0 := hm x
    rw [hT] at h0
    refine ⟨r, by rw [h0.1], by rw [h0.2, List.length_map, Rec.length_vals], fun g =>
      vjp (f := fun x' => matrixEntry (t.build x')) (Prog.good_of_regAt _ _ (TExpr.regAt_tape ht hr) _) fun x' => funext fun k => ?_⟩
    have h1 := hm x'
    cases hb : t.build x' with
    | error e => rw [hb] at h1; exact h1.elim
    | ok T' =>
      rw [hb] at h1
      simp only [matrixEntry, h1.2]
      rw [getD_vals]
      rfl

/-- the methods of a transform build the same object as composing with a constructed transform, so the theorems above cover them -/
theorem C120_methods (s : TExpr ι) (x : ι → ℝ) :
    (∀ a b c, (TExpr.compose s (.translate a b c .f32)).build x = s.build x >>= fun t => t.translate (a.at x) (b.at x) (c.at x)) ∧
    (∀ a b c, (TExpr.compose s (.scale a b c .f32)).build x = s.build x >>= fun t => t.scale (a.at x) (b.at x) (c.at x)) ∧
    (∀ r, (TExpr.compose s (.rotate r .f32)).build x = s.build x >>= fun t => t.rotate (r.at x)) ∧
    ∀ a axis d, (TExpr.compose s (.rotateAxisAngle a axis d)).build x = s.build x >>= fun t => t.rotateAxisAngle (a.at x) axis d := by
  refine ⟨fun a b c => ?_, fun a b c => ?_, fun r => ?_, fun a axis d => ?_⟩ <;> simp only [TExpr.build] <;> cases s.build x with
    | error e => rfl
    | ok t => ?_
  · simp only [ok_bind, T3.translate, T3.mkTranslate]
    cases handleInput (a.at x) (b.at x) (c.at x) false <;> rfl
  · simp only [ok_bind, T3.scale, T3.mkScale]
    cases handleInput (a.at x) (b.at x) (c.at x) true <;> rfl
  · rfl
  · simp only [ok_bind, T3.rotateAxisAngle, T3.mkRotateAxisAngle]
    split
    · split
      · cases handleAngle (a.at x) <;> rfl
      · rfl
    · rfl

/-! ## A shared parameter receives the sum over the batch -/

theorem IsGrad.unique {L : (ι → ℝ) → ℝ} {x G G' : ι → ℝ} (h : IsGrad L x G) (h' : IsGrad L x G') : G = G' := by
  funext j
  have := congrArg (fun L => L (Pi.single j 1)) (HasFDerivAt.unique h h')
  simpa [ContinuousLinearMap.sum_apply, Pi.single_apply] using this

theorem callPoints_translate {N : ℕ} (X : Fin N → Fin P × Fin 3 → ℝ) (d : DType) (p : Fin 3 → ℝ) :
    callPoints (TExpr.translate (.mat3 [fun j => .var j]) .none .none d) (.batch (List.ofFn fun b k => .num (X b k))) p
      = .ok (.batch (List.ofFn fun b => Matrix.of fun i j => X b (i, j) + p j)) := by
  have h : T3.transformPoints (P := P) ⟨.translate, [hom 1 p], d, cpu, .f32, cpu⟩ none
      ((PointsS.batch (List.ofFn fun b k => .num (X b k))).at p) = .ok (.batch (List.ofFn fun b => Matrix.of fun i j => X b (i, j) + p j)) := by
    simp only [PointsS.at, T3.transformPoints, bzip_right, ok_bind]
    show Except.ok (Points.batch _) = _
    congr 2
    rw [List.map_ofFn, List.map_ofFn]
    congr 1
    funext b
    ext i j
    fin_cases j <;> simp [applyPoints, hom, ptsAt, Src.at]
  exact h

/-- one translation applied to a batch of `N` sets of `P` points: it receives the sum of all gradients -/
theorem C120_shared_translation (nr : NormRule) {N : ℕ} (X : Fin N → Fin P × Fin 3 → ℝ) (p : Fin 3 → ℝ) (d : DType) :
    ∃ r, (TExpr.translate (.mat3 [fun j => .var j]) .none .none d).points (.batch (List.ofFn fun b k => .num (X b k))) = .ok r ∧
      r.n = N ∧ ∀ g : Fin r.n × (Fin P × Fin 3) → ℝ, r.p.back nr (up p) (up g) = up fun j => ∑ b, ∑ i, g (b, (i, j)) := by
  obtain ⟨r, h1, h2, h3⟩ := C120_points nr (TExpr.translate (.mat3 [fun j => .var j]) .none .none d) _ (x := p) trivial (callPoints_translate X d p)
  have hn : r.n = N := by simpa [Points.toList] using h2
  refine ⟨r, h1, hn, fun g => ?_⟩
  obtain ⟨-, G, hG, hv⟩ := h3 g
  rw [hG]
  congr 1
  refine IsGrad.unique hv ?_
  have hf : (fun x : Fin 3 → ℝ => ∑ k, g k * pointEntry (callPoints (TExpr.translate (.mat3 [fun j => .var j]) .none .none d)
      (.batch (List.ofFn fun b k => .num (X b k))) x) k) = fun x => ∑ k, g k * (X (Fin.cast hn k.1) k.2 + x k.2.2) := by
    funext x
    refine Finset.sum_congr rfl fun k _ => ?_
    rw [callPoints_translate]
    simp only [pointEntry, Points.toList]
    rw [List.getD_eq_getElem _ _ (by simpa using hn ▸ k.1.2)]
    simp [Fin.cast]
  unfold IsGrad
  rw [hf]
  have : HasFDerivAt (fun x : Fin 3 → ℝ => ∑ k, g k * (X (Fin.cast hn k.1) k.2 + x k.2.2))
      (∑ k : Fin r.n × (Fin P × Fin 3), g k • (ContinuousLinearMap.proj k.2.2 : (Fin 3 → ℝ) →L[ℝ] ℝ)) p := by
    refine HasFDerivAt.fun_sum fun k _ => ?_
    have := ((ContinuousLinearMap.proj k.2.2 : (Fin 3 → ℝ) →L[ℝ] ℝ).hasFDerivAt (x := p)).const_add (X (Fin.cast hn k.1) k.2)
    exact this.const_mul (g k)
  refine this.congr_fderiv ?_
  simp only [Fintype.sum_prod_type, Finset.sum_smul]
  rw [Finset.sum_congr rfl fun b _ => Finset.sum_comm, Finset.sum_comm]

/-! ## Concrete cases -/

/-- inputs: two angles in degrees, a factor, a quaternion -/
abbrev DemoIn := Fin 2 ⊕ Unit ⊕ Fin 4

/-- `Rotate(q).rotate_axis_angle(angles, "Z").scale(s).inverse().translate(1, 2, 3)` for a batch of two angles -/
def demoT : TExpr DemoIn :=
  .compose (.inverse (.compose (.compose (.rotate (.quat fun i => .var (inr (inr i))) .f32)
    (.rotateAxisAngle (.vec [.var (inl 0), .var (inl 1)]) ['Z'] true)) (.scale (.coord (.scalar (.var (inr (inl ()))))) .none .none .f32)))
    (.translate (.coord (.scalar (.num 1))) (.scalar (.num 2)) (.scalar (.num 3)) .f32)

/-- angles 30 and 90 degrees, factor 2, the quaternion of the identity -/
def demoX : DemoIn → ℝ := Sum.elim ![30, 90] (Sum.elim (fun _ => 2) ![1, 0, 0, 0])

theorem demoT_build (x : DemoIn → ℝ) : ∃ A B : M4, ∃ T : T3, demoT.build x = .ok T ∧ T.mats = [A, B] ∧ T.kind = .plain := by
  have h1 : letterAx ('Z'.toUpper) = some .Z := by decide
  simp only [demoT, TExpr.build, T3.mkRotateAxisAngle, List.map_cons, List.map_nil, h1, AngleS.at, handleAngle, ok_bind, pure_ok, if_true,
    T3.compose, List.foldlM_cons, List.foldlM_nil, T3.mkRotate, RotS.at, RotArg.toMats, bzip_left, T3.mkScale, CoordXS.at, CoordS.at, handleInput,
    handleCoord, List.length_cons, List.length_nil, bzip_right, T3.inverse, T3.matrixInverse, T3.mkTranslate, ne_eq, max_self, not_true, false_and,
    or_self, if_false, expandVec, List.replicate_one, List.zip_cons_cons, List.zip_nil_right, List.zipWith_cons_cons, List.zipWith_nil_right,
    zero_add]
  exact ⟨_, _, _, rfl, rfl, rfl⟩

example (x : DemoIn → ℝ) (hq : ∃ i, x (inr (inr i)) ≠ 0) (y : PointsS DemoIn 7) (hy : y = .flat fun _ => .num 1) :
    TRegular x demoT ∧ ∃ z, callPoints demoT y x = .ok z ∧ z.toList.length = 2 := by
  refine ⟨⟨⟨⟨⟨hq, trivial⟩, trivial⟩, fun T hT hk => ?_⟩, trivial⟩, ?_⟩
  · simp only [TExpr.build] at hT
    obtain ⟨a, h1, hT⟩ := bind_eq_ok.1 hT
    obtain ⟨b, h2, hT⟩ := bind_eq_ok.1 hT
    simp only [T3.compose] at hT
    obtain ⟨l, h3, hT⟩ := bind_eq_ok.1 hT
    cases hT
    cases hk
  · obtain ⟨A, B, T, h1, h2, -⟩ := demoT_build x
    subst hy
    simp only [callPoints, h1, ok_bind, PointsS.at, T3.transformPoints, h2, bzip_left]
    exact ⟨_, rfl, rfl⟩

example : ∃ i, demoX (inr (inr i)) ≠ 0 := ⟨0, by simp [demoX]⟩

/-- normals under a `Scale` object with factors 2, 3 and 4, the inputs -/
example : TRegular ![2, 3, 4] (.inverse (.scale (.mat3 [fun j => Src.var j]) .none .none .f64)) := by
  refine ⟨trivial, fun T hT _ M hM i => ?_⟩
  simp only [TExpr.build, T3.mkScale, CoordXS.at, CoordS.at, handleInput, ok_bind, pure_ok] at hT
  cases hT
  obtain rfl := List.mem_singleton.1 hM
  fin_cases i <;> simp [v3At, Src.at]

end
end PK
