import Verif.Model.Float
import Verif.Lemmas.Names
import Verif.Lemmas.Exc

/-!
# The machine's forward kinematics is a product along the path, in the machine's arithmetic
-/

namespace PK
open Spec

/-- a product in the order in which `_fk_impl` multiplies -/
def foldMul {M : Type} [Mul M] (z : M) : List M → M
  | [] => z
  | a :: l => l.foldl (· * ·) a

theorem foldMul_append {M : Type} [Mul M] {z : M} (l : List M) (h : l ≠ []) (a : M) :
    foldMul z (l ++ [a]) = foldMul z l * a := by
  cases l with
  | nil => exact absurd rfl h
  | cons b l => simp [foldMul, List.foldl_append]

/-- product of the local transforms along the ancestors of `j` -/
def worldFold {M : Type} [Mul M] (z : M) (root : Frame) (locals : List M) (j : ℕ) : M :=
  foldMul z ((((ancestors root)[j]?).getD []).map fun i => locals.getD i z)

theorem ancestors_ne_nil (root : Frame) {j : ℕ} {e : QItem} (h : (visit root)[j]? = some e) {pi : List ℕ}
    (hpi : (ancestors root)[j]? = some pi) : pi ≠ [] := by
  rcases Nat.eq_zero_or_pos j with rfl | hj
  · rw [ancestors_zero] at hpi
    simp only [Option.some.injEq] at hpi
    simp [← hpi]
  · obtain ⟨i, hi, e', -, h1, -, -⟩ := visit_parent root h hj
    obtain ⟨p, -, h2⟩ := ancestors_succ root h h1 hi
    rw [hpi] at h2
    simp only [Option.some.injEq] at h2
    simp [h2]

theorem fkAccum_fold {M : Type} [Mul M] (z : M) (root : Frame) (locals : List M)
    (hl : locals.length = (visit root).length) :
    fkAccum (visit root).length ((visit root).map fun e => e.2.1)
      (bfsLevelsOf ((visit root).map fun e => e.2.2)) locals =
      .ok ((List.range (visit root).length).map (worldFold z root locals)) := by
  set L := visit root with hL
  set depths := L.map fun e => e.2.2 with hdep
  set parents := L.map fun e => e.2.1 with hpar
  have hdepth : ∀ (j : ℕ) (e : QItem), L[j]? = some e → depths[j]? = some e.2.2 := by
    intro j e h; simp [hdep, h]
  have hgetD : ∀ j, j < L.length → locals[j]? = some (locals.getD j z) := by
    intro j hj
    rw [List.getElem?_eq_getElem (by omega)]
    simp [List.getD, List.getElem?_eq_getElem (show j < locals.length by omega)]
  rw [bfsLevelsOf_eq]
  simp only [fkAccum]
  have key : ∀ (d j : ℕ) (e : QItem), L[j]? = some e →
      ((List.range d).map fun d => levelAt depths (d + 1)).foldl (levelStep L.length parents locals)
        (fun i => if i ∈ levelAt depths 0 then locals[i]? else none) j =
      if e.2.2 ≤ d then some (worldFold z root locals j) else none := by
    intro d
    induction d with
    | zero =>
      intro j e h
      have hj : j < L.length := (List.getElem?_eq_some_iff.1 h).1
      simp only [List.range_zero, List.map_nil, List.foldl_nil, mem_levelAt, hdepth j e h,
        Option.some.injEq, Nat.le_zero]
      by_cases h0 : e.2.2 = 0
      · have : j = 0 := (visit_depth_zero root h).1 h0
        subst this
        simp only [h0, if_true]
        rw [hgetD 0 hj, worldFold, ancestors_zero]
        simp [foldMul]
      · simp [h0]
    | succ d ih =>
      intro j e h
      have hj : j < L.length := (List.getElem?_eq_some_iff.1 h).1
      rw [List.range_succ, List.map_append, List.foldl_append]
      simp only [List.map_cons, List.map_nil, List.foldl_cons, List.foldl_nil]
      generalize hT : List.foldl (levelStep L.length parents locals)
        (fun i => if i ∈ levelAt depths 0 then locals[i]? else none)
        ((List.range d).map fun d => levelAt depths (d + 1)) = T at ih ⊢
      simp only [levelStep, mem_levelAt, hdepth j e h, Option.some.injEq]
      by_cases hd : e.2.2 = d + 1
      · have hjpos : 0 < j := by
          rcases Nat.eq_zero_or_pos j with hz | hz
          · have := (visit_depth_zero root h).2 hz; omega
          · exact hz
        obtain ⟨i, hi, e', he', h1, h2, h3⟩ := visit_parent root h hjpos
        obtain ⟨pi, hpi, hpj⟩ := ancestors_succ root h h1 hi
        have hp : parents[j]? = some (i : ℤ) := by simp [hpar, h, h1]
        have hil : i < L.length := by omega
        have hidx : pyIndex L.length (i : ℤ) = some i := by simp [pyIndex, hil]
        have hTi := ih i e' he'
        rw [if_pos (by omega)] at hTi
        simp only [hd, if_true, hp, Option.bind_eq_bind, Option.bind_some, hidx, hTi, hgetD j hj, le_refl]
        congr 1
        simp only [worldFold, hpi, hpj, Option.getD_some, List.map_append, List.map_cons, List.map_nil]
        rw [foldMul_append (z := z) _ (by simpa using ancestors_ne_nil root he' hpi)]
      · rw [if_neg hd, ih j e h]
        by_cases h' : e.2.2 ≤ d
        · rw [if_pos h', if_pos (by omega)]
        · rw [if_neg h', if_neg (by omega)]
  apply mapM_ok
  intro j hj
  have hj : j < L.length := by simpa using hj
  have hLj := List.getElem?_eq_getElem hj
  have := key (depths.foldl max 0) j _ hLj
  rw [this, if_pos]
  apply (le_foldl_max depths 0).2
  simp only [hdep, List.mem_map]
  exact ⟨L[j], List.getElem_mem hj, rfl⟩


/-- what a joint does, as the machine computes it -/
noncomputable def motionFl (m : Machine) (j : Joint) (q : ℝ) : M4 :=
  match j.jtype with
  | .revolute => axisAndAngle44Fl m j.axis q
  | .prismatic => axisAndDToPrisFl m j.axis q
  | .fixed => 1

/-- the local transform, as the machine computes it -/
noncomputable def localFl (m : Machine) (f : Frame) (q : ℝ) : M4 :=
  m.mul (m.mul (f.link.offset.getD 1) (f.joint.offset.getD 1)) (motionFl m f.joint q)

theorem initFl_staticOffsets (m : Machine) {root : Frame} : (Chain.initFl m root).staticOffsets = (visit root).map fun e =>
    m.mul (e.1.link.offset.getD 1) (e.1.joint.offset.getD 1) := by
  show List.zipWith _ (finalState root).linkOffsets (finalState root).jointOffsets = _
  rw [(finalState_tables root).linkOffsets, (finalState_tables root).jointOffsets]
  simp only [List.nil_append, zipWith_map_map]

theorem localTransformsFl_ok (m : Machine) {root : Frame} (hn : ((movingJoints root).map Joint.name).Nodup) {B : ℕ}
    (th cols : List (Fin B → ℝ)) (hth : movingJoints root ≠ [] → 0 < th.length)
    (hcols : broadcastCols (movingJoints root).length th = .ok cols) :
    (Chain.initFl m root).localTransformsFl m th =
      .ok ((visit root).map fun e b => localFl m e.1 (colVal root cols b e.1.joint)) := by
  have hrevpos : (Chain.init root).hasRevolute = true → 0 < th.length ∧ 0 < (movingJoints root).length := by
    intro h
    obtain ⟨e, he, ht⟩ := (init_hasRevolute root).1 h
    have : e.1.joint ∈ movingJoints root :=
      mem_movingJoints.2 ⟨by simp [Moving, ht], e.1, mem_visit_iff.1 ⟨e, he, rfl⟩, rfl⟩
    exact ⟨hth (List.ne_nil_of_mem this), List.length_pos_of_mem this⟩
  have hprispos : (Chain.init root).hasPrismatic = true → 0 < th.length ∧ 0 < (movingJoints root).length := by
    intro h
    obtain ⟨e, he, ht⟩ := (init_hasPrismatic root).1 h
    have : e.1.joint ∈ movingJoints root :=
      mem_movingJoints.2 ⟨by simp [Moving, ht], e.1, mem_visit_iff.1 ⟨e, he, rfl⟩, rfl⟩
    exact ⟨hth (List.ne_nil_of_mem this), List.length_pos_of_mem this⟩
  have hclen : cols.length = (movingJoints root).length := broadcastCols_length hcols
  have hpf : ∀ g : V3 → ℝ → M4, 0 < (movingJoints root).length →
      perFrame g (Chain.init root).axes (Chain.init root).jointIndicesClamped th =
      .ok ((visit root).map fun e b => g ((Chain.init root).axes.getD
        (if e.1.joint.jtype = .fixed then 0 else column root e.1.joint) 0)
        (cols.getD (if e.1.joint.jtype = .fixed then 0 else column root e.1.joint) (fun _ => 0) b)) := by
    intro g hpos
    rw [init_clamped]
    apply perFrame_ok
    · rw [init_axes_length]; exact hcols
    · rw [init_axes_length]; exact hclen
    · intro e he
      rw [init_axes_length]
      split
      · exact hpos
      · rename_i hf; exact column_lt he hf
  have hax : ∀ e ∈ visit root, Moving e.1.joint →
      (Chain.init root).axes.getD (column root e.1.joint) 0 = e.1.joint.axis := by
    intro e he hm
    simp [List.getD, init_axes_get hn he hm]
  have heye : List.replicate (Chain.init root).numFrames (1 : Fin B → M4) = (visit root).map fun _ => 1 := by
    rw [init_numFrames, replicate_eq_map]
  have hfin : ∀ J : QItem → Fin B → M4,
      (∀ e ∈ visit root, ∀ b, J e b = motionFl m e.1.joint (colVal root cols b e.1.joint)) →
      (Except.ok (List.zipWith (fun o j => fun b => m.mul o (j b)) (Chain.initFl m root).staticOffsets ((visit root).map J)) :
        Except Err (List (Fin B → M4))) =
      .ok ((visit root).map fun e b => localFl m e.1 (colVal root cols b e.1.joint)) := by
    intro J hJ
    rw [initFl_staticOffsets m, zipWith_map_map]
    congr 1
    apply List.map_congr_left
    intro e he
    funext b
    rw [hJ e he b, localFl]
  have hrev : ∀ e ∈ visit root, e.1.joint.jtype = .revolute → ∀ b,
      axisAndAngle44Fl m ((Chain.init root).axes.getD
        (if e.1.joint.jtype = .fixed then 0 else column root e.1.joint) 0)
        (cols.getD (if e.1.joint.jtype = .fixed then 0 else column root e.1.joint) (fun _ => 0) b) =
      motionFl m e.1.joint (colVal root cols b e.1.joint) := by
    intro e he ht b
    have hm : Moving e.1.joint := by simp [Moving, ht]
    rw [if_neg hm, hax e he hm, motionFl, ht]
    rfl
  have hpris : ∀ e ∈ visit root, e.1.joint.jtype = .prismatic → ∀ b,
      axisAndDToPrisFl m ((Chain.init root).axes.getD
        (if e.1.joint.jtype = .fixed then 0 else column root e.1.joint) 0)
        (cols.getD (if e.1.joint.jtype = .fixed then 0 else column root e.1.joint) (fun _ => 0) b) =
      motionFl m e.1.joint (colVal root cols b e.1.joint) := by
    intro e he ht b
    have hm : Moving e.1.joint := by simp [Moving, ht]
    rw [if_neg hm, hax e he hm, motionFl, ht]
    rfl
  unfold Chain.localTransformsFl
  have e1 : (Chain.initFl m root).hasRevolute = (Chain.init root).hasRevolute := rfl
  have e2 : (Chain.initFl m root).hasPrismatic = (Chain.init root).hasPrismatic := rfl
  have e3 : (Chain.initFl m root).axes = (Chain.init root).axes := rfl
  have e4 : (Chain.initFl m root).jointIndicesClamped = (Chain.init root).jointIndicesClamped := rfl
  have e5 : (Chain.initFl m root).numFrames = (Chain.init root).numFrames := rfl
  have e6 : (Chain.initFl m root).jointTypeIndices = (Chain.init root).jointTypeIndices := rfl
  rw [e1, e2, e3, e4, e5, e6]
  cases hR : (Chain.init root).hasRevolute <;> cases hP : (Chain.init root).hasPrismatic
  · simp only [heye, Bool.false_eq_true, and_false, if_false, Bool.false_and]
    refine hfin (fun _ => 1) ?_
    intro e he b
    have h1 : e.1.joint.jtype ≠ .revolute := fun h => by
      have := (init_hasRevolute root).2 ⟨e, he, h⟩; simp [hR] at this
    have h2 : e.1.joint.jtype ≠ .prismatic := fun h => by
      have := (init_hasPrismatic root).2 ⟨e, he, h⟩; simp [hP] at this
    cases ht : e.1.joint.jtype <;> simp_all [motionFl]
  · have hp := hprispos hP
    simp only [heye, Bool.false_eq_true, and_false, if_false, Bool.false_and, and_true, hp.1, if_true,
      hpf _ hp.2, Bool.not_false, Bool.and_true]
    refine (congrArg (fun l => Except.ok (List.zipWith (fun o (j : Fin B → M4) => fun b => m.mul o (j b))
      (Chain.initFl m root).staticOffsets l)) ?_).trans (hfin (fun e b => if e.1.joint.jtype.index = 2 then
        axisAndDToPrisFl m ((Chain.init root).axes.getD
        (if e.1.joint.jtype = .fixed then 0 else column root e.1.joint) 0)
        (cols.getD (if e.1.joint.jtype = .fixed then 0 else column root e.1.joint) (fun _ => 0) b) else 1) ?_)
    · rw [zip_map_map, init_types, zipWith_map_map]
      apply List.map_congr_left; intro e _; funext b; simp only; split <;> rfl
    · intro e he b
      have h1 : e.1.joint.jtype ≠ .revolute := fun h => by
        have := (init_hasRevolute root).2 ⟨e, he, h⟩; simp [hR] at this
      by_cases ht : e.1.joint.jtype = .prismatic
      · rw [if_pos (by rw [ht]; rfl), hpris e he ht]
      · cases ht' : e.1.joint.jtype <;> simp_all [motionFl, JType.index]
  · have hp := hrevpos hR
    simp only [heye, Bool.false_eq_true, and_false, if_false, and_true, hp.1, if_true,
      hpf _ hp.2, Bool.not_false, Bool.and_true]
    refine (congrArg (fun l => Except.ok (List.zipWith (fun o (j : Fin B → M4) => fun b => m.mul o (j b))
      (Chain.initFl m root).staticOffsets l)) ?_).trans (hfin (fun e b => if e.1.joint.jtype.index = 1 then
        axisAndAngle44Fl m ((Chain.init root).axes.getD
        (if e.1.joint.jtype = .fixed then 0 else column root e.1.joint) 0)
        (cols.getD (if e.1.joint.jtype = .fixed then 0 else column root e.1.joint) (fun _ => 0) b) else 1) ?_)
    · rw [zip_map_map, init_types, zipWith_map_map]
      apply List.map_congr_left; intro e _; funext b; simp only; split <;> rfl
    · intro e he b
      have h1 : e.1.joint.jtype ≠ .prismatic := fun h => by
        have := (init_hasPrismatic root).2 ⟨e, he, h⟩; simp [hP] at this
      by_cases ht : e.1.joint.jtype = .revolute
      · rw [if_pos (by rw [ht]; rfl), hrev e he ht]
      · cases ht' : e.1.joint.jtype <;> simp_all [motionFl, JType.index]
  · have hp := hrevpos hR
    simp only [heye, Bool.false_eq_true, and_false, if_false, and_true, hp.1, if_true,
      hpf _ hp.2, Bool.not_true, Bool.and_self]
    refine (congrArg (fun l => Except.ok (List.zipWith (fun o (j : Fin B → M4) => fun b => m.mul o (j b))
      (Chain.initFl m root).staticOffsets l)) ?_).trans (hfin (fun e b => if e.1.joint.jtype.index = 2 then
        axisAndDToPrisFl m ((Chain.init root).axes.getD
        (if e.1.joint.jtype = .fixed then 0 else column root e.1.joint) 0)
        (cols.getD (if e.1.joint.jtype = .fixed then 0 else column root e.1.joint) (fun _ => 0) b)
        else if e.1.joint.jtype.index = 1 then
        axisAndAngle44Fl m ((Chain.init root).axes.getD
        (if e.1.joint.jtype = .fixed then 0 else column root e.1.joint) 0)
        (cols.getD (if e.1.joint.jtype = .fixed then 0 else column root e.1.joint) (fun _ => 0) b) else 1) ?_)
    · rw [zip_map_map, init_types, zipWith_map_map, zip_map_map, zipWith_map_map]
      apply List.map_congr_left; intro e _; funext b; simp only
      split
      · rfl
      · split <;> rfl
    · intro e he b
      by_cases ht : e.1.joint.jtype = .prismatic
      · rw [if_pos (by rw [ht]; rfl), hpris e he ht]
      · rw [if_neg (by cases ht' : e.1.joint.jtype <;> simp_all [JType.index])]
        by_cases ht2 : e.1.joint.jtype = .revolute
        · rw [if_pos (by rw [ht2]; rfl), hrev e he ht2]
        · cases ht' : e.1.joint.jtype <;> simp_all [motionFl, JType.index]


/-- product of the local transforms along a path, in the machine's arithmetic -/
noncomputable def pathFl (m : Machine) (val : Joint → ℝ) : List Frame → M4
  | [] => 1
  | f :: p => p.foldl (fun T g => m.mul T (localFl m g (val g.joint))) (localFl m f (val f.joint))

/-- the machine's transform at position `j` -/
noncomputable def poseFl (m : Machine) (root : Frame) {B : ℕ} (cols : List (Fin B → ℝ)) (j : ℕ) : Fin B → M4 :=
  (worldFold (M := FlMat m B) ⟨1⟩ root
    (((visit root).map fun e b => localFl m e.1 (colVal root cols b e.1.joint)).map FlMat.mk) j).mat

theorem fkTensorFl_ok (m : Machine) {root : Frame} (hn : ((movingJoints root).map Joint.name).Nodup) {B : ℕ}
    (th cols : List (Fin B → ℝ)) (hth : movingJoints root ≠ [] → 0 < th.length)
    (hcols : broadcastCols (movingJoints root).length th = .ok cols) :
    (Chain.initFl m root).fkTensorFl m th = .ok ((List.range (visit root).length).map (poseFl m root cols)) := by
  unfold Chain.fkTensorFl
  have e1 : (Chain.initFl m root).numFrames = (Chain.init root).numFrames := rfl
  have e2 : (Chain.initFl m root).directParentIdx = (Chain.init root).directParentIdx := rfl
  have e3 : (Chain.initFl m root).bfsLevels = (Chain.init root).bfsLevels := rfl
  rw [localTransformsFl_ok m hn th cols hth hcols, e1, e2, e3, init_numFrames, init_directParents, init_bfsLevels]
  simp only [ok_bind]
  rw [fkAccum_fold (M := FlMat m B) ⟨1⟩ _ _ (by simp)]
  simp only [ok_bind, pure_ok, List.map_map]
  congr 1
  refine List.map_congr_left fun j _ => ?_
  simp only [Function.comp, poseFl, List.map_map]

theorem poseFl_path (m : Machine) (root : Frame) {B : ℕ} (cols : List (Fin B → ℝ)) {j : ℕ} {pi : List ℕ}
    {path : List Frame} (hpi : (ancestors root)[j]? = some pi)
    (hmap : pi.map (frameAt root) = path.map some) (b : Fin B) :
    poseFl m root cols j b = pathFl m (colVal root cols b) path := by
  simp only [poseFl, worldFold, hpi, Option.getD_some]
  have : ∀ (pi : List ℕ) (path : List Frame), pi.map (frameAt root) = path.map some →
      pi.map (fun i => (((visit root).map fun e b => localFl m e.1 (colVal root cols b e.1.joint)).map
        (FlMat.mk (m := m))).getD i ⟨1⟩) =
      path.map fun f => ⟨fun b => localFl m f (colVal root cols b f.joint)⟩ := by
    intro pi
    induction pi with
    | nil => intro path h; cases path <;> simp_all
    | cons i pi ih =>
      intro path h
      cases path with
      | nil => simp at h
      | cons f path =>
        simp only [List.map_cons, List.cons.injEq] at h ⊢
        refine ⟨?_, ih path h.2⟩
        have hf := h.1
        simp only [frameAt, Option.map_eq_some_iff] at hf
        obtain ⟨e, he, rfl⟩ := hf
        simp [List.getD, he]
  rw [this pi path hmap]
  cases path with
  | nil => rfl
  | cons f p =>
    simp only [List.map_cons, foldMul, pathFl]
    generalize hx : (⟨fun b => localFl m f (colVal root cols b f.joint)⟩ : FlMat m B) = x
    have hx' : x.mat b = localFl m f (colVal root cols b f.joint) := by rw [← hx]
    rw [← hx']
    clear hx hx' hmap this
    induction p generalizing x with
    | nil => rfl
    | cons g p ih =>
      simp only [List.map_cons, List.foldl_cons]
      exact ih _

/-- the machine's forward kinematics -/
theorem forwardKinematicsFl_ok (m : Machine) {root : Frame} (h : WF root) {B : ℕ} (th : List (Fin B → ℝ))
    (hth : th.length = (movingJoints root).length) :
    ∃ d, forwardKinematicsFl m root th = .ok d ∧ d.keys = (preorder root).map Frame.name ∧
      ∀ p f, IsPath root p → p.getLast? = some f →
        ∃ T, d.get? f.name = some T ∧ ∀ b, T b = pathFl m (colVal root th b) p := by
  have hc : broadcastCols (movingJoints root).length th = .ok th := by simp [broadcastCols, hth]
  have hpos : movingJoints root ≠ [] → 0 < th.length := fun hne => by
    rw [hth]; exact List.length_pos_iff.2 hne
  have key : forwardKinematicsFl m root th =
      .ok (((preorder root).map Frame.name).foldl (fun d k => Dict.set d k (poseFl m root th (posOf root k))) []) := by
    unfold forwardKinematicsFl
    have e0 : (Chain.initFl m root).getAllFrameIndices = (Chain.init root).getAllFrameIndices := rfl
    simp only [e0, getAllFrameIndices_ok h, fkTensorFl_ok m h.joints_nodup th th hpos hc, ok_bind]
    have e1 : (Chain.initFl m root).idxToFrame = (Chain.init root).idxToFrame := rfl
    rw [e1]
    have hnames : ∀ k ∈ (preorder root).map Frame.name, ∃ f ∈ preorder root, f.name = k := fun k hk => by
      obtain ⟨f, hf, rfl⟩ := List.mem_map.1 hk; exact ⟨f, hf, rfl⟩
    generalize (preorder root).map Frame.name = names at hnames
    generalize ([] : Dict Name (Fin B → M4)) = d
    induction names generalizing d with
    | nil => rfl
    | cons k names ih =>
      obtain ⟨f, hf, rfl⟩ := hnames k (by simp)
      obtain ⟨j, e, he, rfl⟩ := exists_pos hf
      have hj : j < (visit root).length := (List.getElem?_eq_some_iff.1 he).1
      rw [List.map_cons, List.foldlM_cons, List.foldl_cons, ← ih (fun k hk => hnames k (by simp [hk]))]
      simp [h.posOf_eq he, Dict.item, h.idxToFrame he, List.getElem?_range hj]
      rfl
  refine ⟨_, key, ?_, ?_⟩
  · rw [keys_foldl_set ((preorder root).map Frame.name) (fun k => k)]
    simp only [List.map_id_fun', id_eq]
    exact pyUnique_of_nodup h.names_nodup
  · intro p f hp hl
    refine ⟨_, get?_foldl_set _ (fun k => k) _ (fun i _ j _ hij => by rw [hij])
      (List.mem_map.2 ⟨f, path_last_mem hp hl, rfl⟩), fun b => ?_⟩
    obtain ⟨j, e, pi, h1, h2, h3, h4⟩ := isPath_ancestors root hp
    rw [h4] at hl
    simp only [Option.some.injEq] at hl
    subst hl
    rw [h.posOf_eq h1]
    exact poseFl_path m root th h2 h3 b

end PK
