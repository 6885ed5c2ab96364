import Verif.Props.Fk
import Verif.Lemmas.Fl
import Verif.Lemmas.Exc
import Verif.Spec.Print

/-!
# C08–C15, C64: dictionaries, lengths, numbering, names, limits, printing
-/

namespace PK
open Spec

/-! ## C08, C09 -/

theorem foldlM_ensure {B : ℕ} (names : List (Option Name)) (d : Dict (Option Name) (Fin B → Option ℝ))
    (hk : ∀ kv ∈ d, kv.1 ∈ names) (th : List (Fin B → Option ℝ)) :
    d.foldlM (fun th kv => if kv.1 ∈ names then Except.ok (th.set (names.idxOf kv.1) kv.2)
      else .error Err.valueError) th =
    .ok (d.foldl (fun th kv => th.set (names.idxOf kv.1) kv.2) th) := by
  induction d generalizing th with
  | nil => rfl
  | cons kv d ih =>
    rw [List.foldlM_cons, if_pos (hk kv (by simp)), List.foldl_cons]
    exact ih (fun kv' h' => hk kv' (by simp [h'])) _

theorem foldlM_ensure_unknown {B : ℕ} (names : List (Option Name)) (d : Dict (Option Name) (Fin B → Option ℝ))
    (hk : ∃ kv ∈ d, kv.1 ∉ names) (th : List (Fin B → Option ℝ)) :
    d.foldlM (fun th kv => if kv.1 ∈ names then Except.ok (th.set (names.idxOf kv.1) kv.2)
      else .error Err.valueError) th = .error .valueError := by
  induction d generalizing th with
  | nil => simp at hk
  | cons kv d ih =>
    rw [List.foldlM_cons]
    by_cases h : kv.1 ∈ names
    · rw [if_pos h]
      apply ih
      obtain ⟨kv', h1, h2⟩ := hk
      rcases List.mem_cons.1 h1 with rfl | h1
      · exact absurd h h2
      · exact ⟨kv', h1, h2⟩
    · rw [if_neg h]; rfl

theorem foldl_set_length {B : ℕ} (names : List (Option Name)) (d : Dict (Option Name) (Fin B → Option ℝ))
    (th : List (Fin B → Option ℝ)) :
    (d.foldl (fun th kv => th.set (names.idxOf kv.1) kv.2) th).length = th.length := by
  induction d generalizing th with
  | nil => rfl
  | cons kv d ih => rw [List.foldl_cons, ih]; simp

theorem foldl_set_get {B : ℕ} (names : List (Option Name)) (d : Dict (Option Name) (Fin B → Option ℝ))
    (hk : ∀ kv ∈ d, kv.1 ∈ names) (hn : d.keys.Nodup) (th : List (Fin B → Option ℝ))
    (hl : th.length = names.length) (k : Option Name) (hkn : k ∈ names) :
    (d.foldl (fun th kv => th.set (names.idxOf kv.1) kv.2) th)[names.idxOf k]? =
      match d.get? k with
      | some v => some v
      | none => th[names.idxOf k]? := by
  induction d generalizing th with
  | nil => simp [Dict.get?]
  | cons kv d ih =>
    obtain ⟨a, v⟩ := kv
    simp only [Dict.keys, List.map_cons, List.nodup_cons] at hn
    rw [List.foldl_cons, ih (fun kv' h' => hk kv' (by simp [h'])) hn.2 _ (by simpa using hl)]
    by_cases ha : a = k
    · subst ha
      have : Dict.get? d a = none := (Dict.get?_eq_none_iff d a).2 hn.1
      have hlt : names.idxOf a < th.length := by rw [hl]; exact List.idxOf_lt_length_of_mem hkn
      simp [Dict.get?, this, hlt]
    · have hne : names.idxOf a ≠ names.idxOf k := fun h =>
        ha ((List.idxOf_inj (hk (a, v) (by simp))).1 h)
      simp [Dict.get?, ha, List.getElem?_set_ne hne]

/-- The columns of a dictionary in the documented order. -/
noncomputable def Spec.dictCols (root : Frame) {B : ℕ} (d : Dict (Option Name) (Fin B → Option ℝ)) : List (Fin B → ℝ) :=
  (movingJoints root).map fun j b => ((d.get? j.name).bind fun v => v b).getD 0

theorem init_paramNames (root : Frame) :
    (Chain.init root).getJointParameterNames = (movingJoints root).map Joint.name := jointParamNames_eq root

theorem ensure_cols {root : Frame} (h : WF root) {B : ℕ} (d : Dict (Option Name) (Fin B → Option ℝ))
    (hn : d.keys.Nodup) (hk : ∀ kv ∈ d, kv.1 ∈ (movingJoints root).map Joint.name) :
    (d.foldl (fun th kv => th.set (((movingJoints root).map Joint.name).idxOf kv.1) kv.2)
      (List.replicate (movingJoints root).length fun _ => none)) =
    (movingJoints root).map fun j => (d.get? j.name).getD fun _ => none := by
  apply List.ext_getElem?
  intro i
  by_cases hi : i < (movingJoints root).length
  · have hi' : i < ((movingJoints root).map Joint.name).length := by simpa using hi
    have hidx := h.joints_nodup.idxOf_getElem i hi'
    have hmem : ((movingJoints root).map Joint.name)[i] ∈ (movingJoints root).map Joint.name := List.getElem_mem hi'
    have := foldl_set_get ((movingJoints root).map Joint.name) d hk hn
      (List.replicate (movingJoints root).length fun _ => none) (by simp) _ hmem
    rw [hidx] at this
    rw [this]
    simp only [List.getElem_map, List.getElem?_map, List.getElem?_eq_getElem hi, Option.map_some]
    cases d.get? ((movingJoints root)[i]).name <;> simp [hi]
  · rw [List.getElem?_eq_none (by rw [foldl_set_length]; simp; omega), List.getElem?_eq_none (by simp; omega)]

/-- C08: a dictionary naming each moving joint exactly once, with numeric values, is turned into the
tensor whose columns follow `get_joint_parameter_names`. -/
theorem C08_dict_to_tensor (root : Frame) (h : WF root) {B : ℕ} (d : Dict (Option Name) (Fin B → Option ℝ))
    (hk : d.keys.Perm ((movingJoints root).map Joint.name)) (hne : movingJoints root ≠ [])
    (hv : ∀ kv ∈ d, ∀ b, kv.2 b ≠ none) :
    (Chain.init root).ensureTensorDict d = .ok (dictCols root d) := by
  have hdn : d.keys.Nodup := hk.nodup_iff.2 h.joints_nodup
  have hmem : ∀ kv ∈ d, kv.1 ∈ (movingJoints root).map Joint.name := fun kv hkv =>
    hk.mem_iff.1 (List.mem_map.2 ⟨kv, hkv, rfl⟩)
  have hcons : ∃ kv r, d = kv :: r := by
    cases d with
    | nil =>
      have := hk.length_eq
      simp [Dict.keys] at this
      exact absurd this.symm (by simpa using hne)
    | cons kv r => exact ⟨kv, r, rfl⟩
  have hget : ∀ j ∈ movingJoints root, ∃ v, d.get? j.name = some v ∧ ∀ b, v b ≠ none := by
    intro j hj
    have : j.name ∈ d.keys := hk.mem_iff.2 (List.mem_map.2 ⟨j, hj, rfl⟩)
    cases hg : d.get? j.name with
    | none => exact absurd this ((Dict.get?_eq_none_iff _ _).1 hg)
    | some v => exact ⟨v, rfl, hv _ (Dict.mem_of_get? hg)⟩
  unfold Chain.ensureTensorDict
  simp only [init_paramNames, init_nJoints]
  rw [foldlM_ensure _ d hmem, ensure_cols h d hdn hmem]
  obtain ⟨kv, r, hd⟩ := hcons
  have hno : ¬ ∃ col ∈ (movingJoints root).map (fun j => (d.get? j.name).getD fun _ => none), ∃ b, col b = none := by
    rintro ⟨col, hcol, b, hb⟩
    obtain ⟨j, hj, rfl⟩ := List.mem_map.1 hcol
    obtain ⟨v, hv1, hv2⟩ := hget j hj
    rw [hv1] at hb
    exact hv2 b hb
  split
  · cases hd
  · show (if _ then _ else _) = _
    rw [if_neg hno]
    congr 1
    rw [dictCols, List.map_map]
    apply List.map_congr_left
    intro j hj
    obtain ⟨v, hv1, hv2⟩ := hget j hj
    funext b
    simp [hv1]

/-- C08: forward kinematics on the dictionary is forward kinematics on that tensor. -/
theorem C08_dict_fk (root : Frame) (h : WF root) {B : ℕ} (d : Dict (Option Name) (Fin B → Option ℝ))
    (hk : d.keys.Perm ((movingJoints root).map Joint.name)) (hne : movingJoints root ≠ [])
    (hv : ∀ kv ∈ d, ∀ b, kv.2 b ≠ none) :
    (Chain.init root).forwardKinematicsDict d = (Chain.init root).forwardKinematics (dictCols root d) := by
  unfold Chain.forwardKinematicsDict
  rw [C08_dict_to_tensor root h d hk hne hv, forwardKinematics_none h, getAllFrameIndices_ok h]
  rfl

/-- C08: the insertion order of the dictionary does not matter. -/
theorem C08_insertion_order (root : Frame) (h : WF root) {B : ℕ} (d d' : Dict (Option Name) (Fin B → Option ℝ))
    (hp : d.Perm d') (hk : d.keys.Perm ((movingJoints root).map Joint.name)) (hne : movingJoints root ≠ [])
    (hv : ∀ kv ∈ d, ∀ b, kv.2 b ≠ none) :
    (Chain.init root).forwardKinematicsDict d = (Chain.init root).forwardKinematicsDict d' := by
  have hpk : d.keys.Perm d'.keys := hp.map _
  have hn : d.keys.Nodup := hk.nodup_iff.2 h.joints_nodup
  have hn' : d'.keys.Nodup := hpk.nodup_iff.1 hn
  rw [C08_dict_fk root h d hk hne hv, C08_dict_fk root h d' (hpk.symm.trans hk) hne
    fun kv hkv => hv kv (hp.mem_iff.2 hkv)]
  have : ∀ k, d.get? k = d'.get? k := by
    intro k
    cases hg : d.get? k with
    | some v => exact (Dict.get?_of_mem hn' (hp.mem_iff.1 (Dict.mem_of_get? hg))).symm
    | none =>
      symm; rw [Dict.get?_eq_none_iff, ← hpk.mem_iff, ← Dict.get?_eq_none_iff]; exact hg
  simp only [dictCols, this]

/-- C08: on a chain without moving joints the only such dictionary is the empty one, and it raises. -/
theorem C08_empty_dict_raises (root : Frame) {B : ℕ} :
    (Chain.init root).ensureTensorDict (B := B) [] = .error .indexError := rfl

example : ∃ d : Dict (Option Name) (Fin 2 → Option ℝ),
    d.keys.Perm ((movingJoints exTree).map Joint.name) ∧ ∀ kv ∈ d, ∀ b, kv.2 b ≠ none := by
  refine ⟨[(some ['j', '3'], fun _ => some 1), (some ['j', '1'], fun b => some b), (some ['j', '2'], fun _ => some 0)], ?_, ?_⟩
  · simp [Dict.keys, exTree, movingJoints, preorder, preorderL, Frame.joint, Moving]
    decide
  · simp

/-- C09: a dictionary that names an unknown joint, misses a moving joint, or holds a NaN is rejected
with ValueError (IndexError for the empty dictionary). -/
theorem C09_bad_dict_raises (root : Frame) (h : WF root) {B : ℕ} (hB : 0 < B)
    (d : Dict (Option Name) (Fin B → Option ℝ)) (hn : d.keys.Nodup)
    (hbad : (∃ k ∈ d.keys, k ∉ (movingJoints root).map Joint.name) ∨
      (∃ j ∈ movingJoints root, j.name ∉ d.keys) ∨ (∃ kv ∈ d, ∃ b, kv.2 b = none)) :
    (Chain.init root).ensureTensorDict d = .error (if d = [] then .indexError else .valueError) := by
  cases d with
  | nil => rfl
  | cons kv0 r =>
    rw [if_neg (by simp)]
    set d := kv0 :: r with hd
    unfold Chain.ensureTensorDict
    simp only [init_paramNames, init_nJoints]
    show (_ >>= _) = _
    by_cases hu : ∃ kv ∈ d, kv.1 ∉ (movingJoints root).map Joint.name
    · rw [foldlM_ensure_unknown _ d hu]; rfl
    · have hmem : ∀ kv ∈ d, kv.1 ∈ (movingJoints root).map Joint.name := by
        intro kv hkv; by_contra hc; exact hu ⟨kv, hkv, hc⟩
      rw [foldlM_ensure _ d hmem, ensure_cols h d hn hmem]
      show (if _ then _ else _) = _
      rw [if_pos]
      rcases hbad with ⟨k, hk, hk'⟩ | ⟨j, hj, hj'⟩ | ⟨kv, hkv, b, hb⟩
      · obtain ⟨kv, hkv, rfl⟩ := List.mem_map.1 hk
        exact absurd (hmem kv hkv) hk'
      · refine ⟨_, List.mem_map.2 ⟨j, hj, rfl⟩, ⟨0, hB⟩, ?_⟩
        rw [(Dict.get?_eq_none_iff _ _).2 hj']; rfl
      · obtain ⟨j, hj, hjn⟩ := List.mem_map.1 (hmem kv hkv)
        refine ⟨_, List.mem_map.2 ⟨j, hj, rfl⟩, b, ?_⟩
        rw [hjn, Dict.get?_of_mem hn (show (kv.1, kv.2) ∈ d from hkv)]
        exact hb

example : ∃ d : Dict (Option Name) (Fin 1 → Option ℝ), d.keys.Nodup ∧
    ∃ j ∈ movingJoints exTree, j.name ∉ d.keys := by
  refine ⟨[(some ['j', '1'], fun _ => some 1)], by simp [Dict.keys], ?_⟩
  simp [exTree, movingJoints, preorder, preorderL, Frame.joint, Moving, Dict.keys]

/-- C09 needs `0 < B`: with an empty batch there is no NaN to find, so a missing joint goes unnoticed. -/
theorem C09_empty_batch_unnoticed : ∃ d : Dict (Option Name) (Fin 0 → Option ℝ),
    (∃ j ∈ movingJoints exTree, j.name ∉ d.keys) ∧ ∃ th, (Chain.init exTree).ensureTensorDict d = .ok th := by
  refine ⟨[(some ['j', '1'], fun _ => some 1)], ?_, ?_⟩
  · simp [exTree, movingJoints, preorder, preorderL, Frame.joint, Moving, Dict.keys]
  · unfold Chain.ensureTensorDict
    simp only [init_paramNames, init_nJoints]
    show ∃ th, (_ >>= _) = _
    rw [foldlM_ensure _ _ (by simp [exTree, movingJoints, preorder, preorderL, Frame.joint, Moving])]
    simp only [ok_bind]
    exact ⟨_, if_neg (by rintro ⟨_, _, b, _⟩; exact b.elim0)⟩

/-! ## C10 -/

theorem localTransforms_err {root : Frame} (hne : movingJoints root ≠ []) {B : ℕ} (th : List (Fin B → ℝ))
    (h1 : th.length ≠ (movingJoints root).length) (h2 : th.length ≠ 1) :
    (Chain.init root).localTransforms th = .error (if th = [] then .unboundLocal else .runtimeError) := by
  have hmov : (Chain.init root).hasRevolute = true ∨ (Chain.init root).hasPrismatic = true := by
    obtain ⟨j, hj⟩ := List.exists_mem_of_ne_nil _ hne
    obtain ⟨hm, f, hf, rfl⟩ := mem_movingJoints.1 hj
    obtain ⟨e, he, rfl⟩ := mem_visit_iff.2 hf
    cases ht : e.1.joint.jtype
    · exact absurd ht hm
    · exact .inl ((init_hasRevolute root).2 ⟨e, he, ht⟩)
    · exact .inr ((init_hasPrismatic root).2 ⟨e, he, ht⟩)
  have hbc : broadcastCols (Chain.init root).axes.length th = .error .runtimeError := by
    rw [init_axes_length]
    unfold broadcastCols
    rw [if_neg h1]
    match th, h2 with
    | [], _ => rfl
    | [_], h2 => simp at h2
    | _ :: _ :: _, _ => rfl
  have hpf : ∀ g, perFrame g (Chain.init root).axes (Chain.init root).jointIndicesClamped th = .error .runtimeError := by
    intro g
    unfold perFrame
    rw [hbc]; rfl
  unfold Chain.localTransforms
  by_cases h0 : th = []
  · subst h0
    simp only [List.length_nil, lt_irrefl, false_and, if_false, if_true]
    rcases hmov with hm | hm
    · cases hP : (Chain.init root).hasPrismatic <;> simp [hm, bound] <;> rfl
    · cases hR : (Chain.init root).hasRevolute <;> simp [hm, bound] <;> rfl
  · have hpos : 0 < th.length := List.length_pos_iff.2 h0
    simp only [hpos, true_and, if_neg h0, hpf]
    rcases hmov with hm | hm
    · simp [hm]; rfl
    · cases hR : (Chain.init root).hasRevolute <;> simp [hm] <;> rfl

/-- C10 (partial): on a chain with at least one moving joint, a `(B, m)` tensor with `m ≠ n_joints`
and `m ≠ 1` raises (RuntimeError; UnboundLocalError when `m = 0`). Missing from the full claim: `m = 1`
and chains without moving joints, see the two theorems below. -/
theorem C10_wrong_width_raises_partial (root : Frame) (h : WF root) (hne : movingJoints root ≠ []) {B : ℕ}
    (th : List (Fin B → ℝ)) (h1 : th.length ≠ (movingJoints root).length) (h2 : th.length ≠ 1) :
    (Chain.init root).forwardKinematics th = .error (if th = [] then .unboundLocal else .runtimeError) := by
  unfold Chain.forwardKinematics Chain.fkTensor
  rw [localTransforms_err hne th h1 h2, getAllFrameIndices_ok h]
  rfl

example : ([fun _ => 0, fun _ => 0] : List (Fin 1 → ℝ)).length ≠ (movingJoints exTree).length ∧
    ([fun _ => 0, fun _ => 0] : List (Fin 1 → ℝ)).length ≠ 1 := by
  simp [exTree, movingJoints, preorder, preorderL, Frame.joint, Moving]

/-- C10 fails for `m = 1`: a one-column tensor is broadcast to all joints. -/
theorem C10_one_column_is_broadcast (root : Frame) (h : WF root) {B : ℕ} (col : Fin B → ℝ) :
    (Chain.init root).forwardKinematics [col] =
      (Chain.init root).forwardKinematics (List.replicate (movingJoints root).length col) := by
  have hc : broadcastCols (movingJoints root).length [col] = .ok (List.replicate (movingJoints root).length col) := by
    unfold broadcastCols
    by_cases h1 : [col].length = (movingJoints root).length
    · rw [if_pos h1, ← h1]; rfl
    · rw [if_neg h1]
  rw [forwardKinematics_none h, forwardKinematics_none h,
    forwardKinematics_some h [col] _ (by simp) hc _ (by simp),
    forwardKinematics_some h (List.replicate _ col) (List.replicate (movingJoints root).length col)
      (fun hne => by simpa using List.length_pos_iff.2 hne) (by simp [broadcastCols]) _ (by simp)]

/-- C10 fails: witness, a three-joint chain accepts one joint value. -/
theorem C10_fails_one_column : (movingJoints exTree).length = 3 ∧
    ∃ d, (Chain.init exTree).forwardKinematics (B := 1) [fun _ => 1] = .ok d := by
  have h3 : (movingJoints exTree).length = 3 := by
    simp [exTree, movingJoints, preorder, preorderL, Frame.joint, Moving]
  refine ⟨h3, ?_⟩
  rw [C10_one_column_is_broadcast exTree exTree_wf]
  obtain ⟨d, hd, -⟩ := C01_fk_is_path_product exTree exTree_wf (B := 1)
    (List.replicate (movingJoints exTree).length fun _ => 1) (by simp)
  exact ⟨d, hd⟩

/-- C10 fails on chains without moving joints: every tensor is accepted, and ignored. -/
theorem C10_no_joints_accepts_anything (root : Frame) (h : WF root) (hnil : movingJoints root = []) {B : ℕ}
    (th : List (Fin B → ℝ)) :
    ∃ d, (Chain.init root).forwardKinematics th = .ok d ∧ (Chain.init root).forwardKinematics (B := B) [] = .ok d := by
  have hR : (Chain.init root).hasRevolute = false := by
    by_contra hc
    obtain ⟨e, he, ht⟩ := (init_hasRevolute root).1 (by simpa using hc)
    have : e.1.joint ∈ movingJoints root :=
      mem_movingJoints.2 ⟨by simp [Moving, ht], e.1, mem_visit_iff.1 ⟨e, he, rfl⟩, rfl⟩
    rw [hnil] at this; simp at this
  have hP : (Chain.init root).hasPrismatic = false := by
    by_contra hc
    obtain ⟨e, he, ht⟩ := (init_hasPrismatic root).1 (by simpa using hc)
    have : e.1.joint ∈ movingJoints root :=
      mem_movingJoints.2 ⟨by simp [Moving, ht], e.1, mem_visit_iff.1 ⟨e, he, rfl⟩, rfl⟩
    rw [hnil] at this; simp at this
  have hloc : (Chain.init root).localTransforms th = (Chain.init root).localTransforms (B := B) [] := by
    unfold Chain.localTransforms
    simp [hR, hP]
  obtain ⟨d, hd, -⟩ := C01_fk_is_path_product root h (B := B) [] (by simp [hnil])
  refine ⟨d, ?_, hd⟩
  rw [← hd]
  unfold Chain.forwardKinematics Chain.fkTensor
  rw [hloc]

/-! ## C11 -/

/- `exTree` (`Props/Fk.lean`: two branches, depth 2, fixed and moving joints) meets the hypothesis of
the C11 and C12 theorems. -/
example : WF exTree := exTree_wf

/-- C11: the two tables are mutually inverse bijections between the frame names and `0 … N-1`. -/
theorem C11_bijection (root : Frame) (h : WF root) :
    (Chain.init root).numFrames = (preorder root).length ∧
    (∀ k i, (Chain.init root).frameToIdx.get? k = some i ↔ (Chain.init root).idxToFrame.get? i = some k) ∧
    (∀ k, (∃ i, (Chain.init root).frameToIdx.get? k = some i) ↔ ∃ f ∈ preorder root, f.name = k) ∧
    (∀ i, (∃ k, (Chain.init root).idxToFrame.get? i = some k) ↔ i < (preorder root).length) := by
  have hlen : (visit root).length = (preorder root).length := by
    simpa using (visit_perm root).length_eq
  have hk : ∀ k, (∃ i, (Chain.init root).frameToIdx.get? k = some i) → ∃ f ∈ preorder root, f.name = k := by
    rintro k ⟨i, hi⟩
    by_contra hc
    have : ∀ f ∈ preorder root, f.name ≠ k := fun f hf hfk => hc ⟨f, hf, hfk⟩
    rw [h.frameToIdx_none this] at hi; cases hi
  refine ⟨by rw [init_numFrames, hlen], ?_, ?_, ?_⟩
  · intro k i
    constructor
    · intro hi
      obtain ⟨f, hf, rfl⟩ := hk k ⟨i, hi⟩
      obtain ⟨j, e, he, rfl⟩ := exists_pos hf
      rw [h.frameToIdx he] at hi
      obtain rfl := Option.some.inj hi
      exact h.idxToFrame he
    · intro hi
      rw [init_idxToFrame] at hi
      cases he : (visit root)[i]? with
      | none => rw [he] at hi; cases hi
      | some e =>
        rw [he] at hi
        simp only [Option.map_some, Option.some.injEq] at hi
        rw [h.strip (visit_mem_preorder he)] at hi
        rw [← hi]; exact h.frameToIdx he
  · intro k
    refine ⟨hk k, ?_⟩
    rintro ⟨f, hf, rfl⟩
    obtain ⟨j, e, he, rfl⟩ := exists_pos hf
    exact ⟨j, h.frameToIdx he⟩
  · intro i
    rw [← hlen]
    constructor
    · rintro ⟨k, hk⟩
      rw [init_idxToFrame] at hk
      by_contra hc
      rw [List.getElem?_eq_none (by omega)] at hk; cases hk
    · intro hi
      exact ⟨_, h.idxToFrame (List.getElem?_eq_getElem hi)⟩

/-- C11: the root has index 0 and every child a larger index than its parent. -/
theorem C11_topological (root : Frame) (h : WF root) :
    (Chain.init root).frameToIdx.get? root.name = some 0 ∧
    ∀ f ∈ preorder root, ∀ c ∈ f.children, ∃ i j, (Chain.init root).frameToIdx.get? f.name = some i ∧
      (Chain.init root).frameToIdx.get? c.name = some j ∧ i < j := by
  refine ⟨h.frameToIdx (visit_zero root), fun f hf c hc => ?_⟩
  obtain ⟨i, e, he, rfl⟩ := exists_pos hf
  obtain ⟨j, hij, hj⟩ := visit_child root he hc
  exact ⟨i, j, h.frameToIdx he, h.frameToIdx hj, hij⟩

/-- C11: `parents_indices[i]` is the root-to-frame path, as indices. -/
theorem C11_parents_indices (root : Frame) (h : WF root) (p : List Frame) (f : Frame) (hp : IsPath root p)
    (hl : p.getLast? = some f) :
    ∃ i pi, (Chain.init root).frameToIdx.get? f.name = some i ∧ (Chain.init root).parentsIndices[i]? = some pi ∧
      pi.map some = p.map fun g => (Chain.init root).frameToIdx.get? g.name := by
  obtain ⟨j, e, pi, h1, h2, h3, h4⟩ := isPath_ancestors root hp
  rw [h4] at hl
  obtain rfl := Option.some.inj hl
  refine ⟨j, pi, h.frameToIdx h1, h2, ?_⟩
  clear h2 h4 hp hl
  induction pi generalizing p with
  | nil => cases p <;> simp_all
  | cons i pi ih =>
    cases p with
    | nil => simp at h3
    | cons g p =>
      simp only [List.map_cons, List.cons.injEq] at h3 ⊢
      refine ⟨?_, ih p h3.2⟩
      obtain ⟨e', he', rfl⟩ := Option.map_eq_some_iff.1 h3.1
      exact (h.frameToIdx he').symm

/-! ## C12 -/

mutual
theorem findFrameRec_eq (name : Name) : ∀ f : Frame,
    f.findFrameRec name = (preorderL f.children).find? fun g => decide (g.name = name)
  | .mk n l j cs => by
    simp only [Frame.findFrameRec, Frame.children]; exact findFrameRecL_eq name cs
theorem findFrameRecL_eq (name : Name) : ∀ fs : List Frame,
    Frame.findFrameRecL name fs = (preorderL fs).find? fun g => decide (g.name = name)
  | [] => by simp [Frame.findFrameRecL, preorderL]
  | c :: cs => by
    simp only [Frame.findFrameRecL, preorderL, List.find?_append]
    rw [preorder_eq, List.find?_cons, findFrameRec_eq name c, findFrameRecL_eq name cs]
    by_cases h : c.name = name
    · simp [h]
    · simp only [h, decide_false, if_false]
      cases (preorderL c.children).find? fun g => decide (g.name = name) <;> simp
end

mutual
theorem findLinkRec_eq (name : Option Name) : ∀ f : Frame,
    f.findLinkRec name = ((preorderL f.children).map Frame.link).find? fun g => decide (g.name = name)
  | .mk n l j cs => by
    simp only [Frame.findLinkRec, Frame.children]; exact findLinkRecL_eq name cs
theorem findLinkRecL_eq (name : Option Name) : ∀ fs : List Frame,
    Frame.findLinkRecL name fs = ((preorderL fs).map Frame.link).find? fun g => decide (g.name = name)
  | [] => by simp [Frame.findLinkRecL, preorderL]
  | c :: cs => by
    simp only [Frame.findLinkRecL, preorderL, List.map_append, List.find?_append]
    rw [preorder_eq, List.map_cons, List.find?_cons, findLinkRec_eq name c, findLinkRecL_eq name cs]
    by_cases h : c.link.name = name
    · simp [h]
    · simp only [h, decide_false, if_false]
      cases ((preorderL c.children).map Frame.link).find? fun g => decide (g.name = name) <;> simp
end

mutual
theorem findJointRec_eq (name : Option Name) : ∀ f : Frame,
    f.findJointRec name = ((preorderL f.children).map Frame.joint).find? fun g => decide (g.name = name)
  | .mk n l j cs => by
    simp only [Frame.findJointRec, Frame.children]; exact findJointRecL_eq name cs
theorem findJointRecL_eq (name : Option Name) : ∀ fs : List Frame,
    Frame.findJointRecL name fs = ((preorderL fs).map Frame.joint).find? fun g => decide (g.name = name)
  | [] => by simp [Frame.findJointRecL, preorderL]
  | c :: cs => by
    simp only [Frame.findJointRecL, preorderL, List.map_append, List.find?_append]
    rw [preorder_eq, List.map_cons, List.find?_cons, findJointRec_eq name c, findJointRecL_eq name cs]
    by_cases h : c.joint.name = name
    · simp [h]
    · simp only [h, decide_false, if_false]
      cases ((preorderL c.children).map Frame.joint).find? fun g => decide (g.name = name) <;> simp
end

mutual
theorem getLinkNames_eq : ∀ f : Frame, f.getLinkNames = (preorder f).map fun g => g.link.name
  | .mk n l j cs => by
    simp [Frame.getLinkNames, preorder, Frame.link, getLinkNamesL_eq cs]
theorem getLinkNamesL_eq : ∀ fs : List Frame, Frame.getLinkNamesL fs = (preorderL fs).map fun g => g.link.name
  | [] => by simp [Frame.getLinkNamesL, preorderL]
  | c :: cs => by
    simp [Frame.getLinkNamesL, preorderL, getLinkNames_eq c, getLinkNamesL_eq cs]
end

mutual
theorem getLinks_eq : ∀ f : Frame, f.getLinks = (preorder f).map Frame.link
  | .mk n l j cs => by
    simp [Frame.getLinks, preorder, Frame.link, getLinksL_eq cs]
theorem getLinksL_eq : ∀ fs : List Frame, Frame.getLinksL fs = (preorderL fs).map Frame.link
  | [] => by simp [Frame.getLinksL, preorderL]
  | c :: cs => by
    simp [Frame.getLinksL, preorderL, getLinks_eq c, getLinksL_eq cs]
end

mutual
theorem getFrameNames_true_eq : ∀ f : Frame, f.getFrameNames true =
    ((preorder f).filter fun g => decide (Moving g.joint)).map Frame.name
  | .mk n l j cs => by
    simp only [Frame.getFrameNames, preorder, getFrameNamesL_true_eq cs]
    by_cases h : j.jtype = .fixed <;> simp [h, List.filter_cons, Moving, Frame.joint, Frame.name]
theorem getFrameNamesL_true_eq : ∀ fs : List Frame, Frame.getFrameNamesL true fs =
    ((preorderL fs).filter fun g => decide (Moving g.joint)).map Frame.name
  | [] => by simp [Frame.getFrameNamesL, preorderL]
  | c :: cs => by
    simp [Frame.getFrameNamesL, preorderL, getFrameNames_true_eq c, getFrameNamesL_true_eq cs]
end

/-- `out` lists every element of `l` exactly once, ordered by first occurrence in `l`. -/
def Spec.FirstOccurrences {α : Type} [DecidableEq α] (out l : List α) : Prop :=
  out.Nodup ∧ (∀ a, a ∈ out ↔ a ∈ l) ∧ out.Pairwise fun a b => l.idxOf a < l.idxOf b

theorem pyUnique_firstOccurrences {α : Type} [DecidableEq α] (l : List α) : FirstOccurrences (pyUnique l) l := by
  refine ⟨pyUnique_nodup l, fun a => mem_pyUnique, ?_⟩
  induction l with
  | nil => simp [pyUnique]
  | cons a l ih =>
    simp only [pyUnique, List.pairwise_cons, List.mem_filter, decide_eq_true_eq]
    constructor
    · rintro b ⟨-, hb⟩
      rw [List.idxOf_cons_self, List.idxOf_cons_ne _ hb.symm]; omega
    · have h1 := ih.filter fun b => decide (b ≠ a)
      apply h1.imp_of_mem
      intro b c hb hc hlt
      have hb' := (List.mem_filter.1 hb).2
      have hc' := (List.mem_filter.1 hc).2
      simp only [decide_eq_true_eq] at hb' hc'
      rw [List.idxOf_cons_ne _ hb'.symm, List.idxOf_cons_ne _ hc'.symm]; omega

/-- C12: name listings hold every name once, in depth-first order of first occurrence. -/
theorem C12_listings (root : Frame) :
    FirstOccurrences ((Chain.init root).getFrameNames false) ((preorder root).map Frame.name) ∧
    FirstOccurrences ((Chain.init root).getFrameNames true)
      (((preorder root).filter fun g => decide (Moving g.joint)).map Frame.name) ∧
    FirstOccurrences (Chain.init root).getLinkNames ((preorder root).map fun g => g.link.name) ∧
    (Chain.init root).getLinks = (preorder root).map Frame.link := by
  refine ⟨?_, ?_, ?_, getLinks_eq root⟩
  · rw [← getFrameNames_eq]; exact pyUnique_firstOccurrences _
  · rw [← getFrameNames_true_eq]; exact pyUnique_firstOccurrences _
  · rw [← getLinkNames_eq]; exact pyUnique_firstOccurrences _

/-- C12: lookups return the first match in depth-first order, `None` exactly when there is none. -/
theorem C12_lookups (root : Frame) (n : Name) (o : Option Name) :
    root.findFrame n = (preorder root).find? (fun g => decide (g.name = n)) ∧
    root.findLink o = ((preorder root).map Frame.link).find? (fun g => decide (g.name = o)) ∧
    root.findJoint o = ((preorder root).map Frame.joint).find? (fun g => decide (g.name = o)) := by
  refine ⟨?_, ?_, ?_⟩
  · rw [Frame.findFrame, preorder_eq, List.find?_cons, findFrameRec_eq]
    by_cases h : root.name = n <;> simp [h]
  · rw [Frame.findLink, preorder_eq, List.map_cons, List.find?_cons, findLinkRec_eq]
    by_cases h : root.link.name = o <;> simp [h]
  · rw [Frame.findJoint, preorder_eq, List.map_cons, List.find?_cons, findJointRec_eq]
    by_cases h : root.joint.name = o <;> simp [h]

/-- C12: lookup of a frame of a tree with distinct names finds exactly that frame. -/
theorem C12_find_frame (root f : Frame) (h : WF root) (hf : f ∈ preorder root) : root.findFrame f.name = some f := by
  rw [(C12_lookups root f.name none).1]
  cases hg : (preorder root).find? (fun g => decide (g.name = f.name)) with
  | none =>
    have := List.find?_eq_none.1 hg f hf
    simp at this
  | some g =>
    have h1 := List.mem_of_find?_eq_some hg
    have h2 := List.find?_some hg
    simp only [decide_eq_true_eq] at h2
    rw [List.inj_on_of_nodup_map h.names_nodup h1 hf h2]

/-! ## C13 -/

/-- C13 (partial): `get_joints(exclude_fixed=False)` returns the *moving* joints of all frames below the
root, in depth-first order. Missing: fixed joints and the root's joint. -/
theorem C13_get_joints_partial (root : Frame) :
    (Chain.init root).getJoints false =
      ((preorderL root.children).map Frame.joint).filter (fun j => decide (Moving j)) ∧
    (Chain.init root).getJoints true = movingJoints root := by
  refine ⟨?_, getJoints_true root⟩
  cases root with
  | mk n l j cs =>
    show [] ++ Frame.getJointsL cs = _
    rw [List.nil_append, getJointsL_eq]; rfl

/-- C13 fails: with `exclude_fixed=False`, a fixed joint below the root is not returned. -/
theorem C13_fails_fixed_joint : ∃ f ∈ preorder exTree, f ≠ exTree ∧ ¬ Moving f.joint ∧
    f.joint ∉ (Chain.init exTree).getJoints false := by
  refine ⟨.mk ['t'] {} { name := some ['f'] } [], by simp [exTree, preorder, preorderL],
    by simp [exTree], by simp [Moving, Frame.joint], ?_⟩
  rw [(C13_get_joints_partial exTree).1]
  intro hm
  have := (List.mem_filter.1 hm).2
  simp [Frame.joint, Moving] at this

/-- C13 fails: with `exclude_fixed=False` the root's own joint is dropped, whatever its type. -/
theorem C13_fails_root_joint : ∃ root : Frame, Moving root.joint ∧ (Chain.init root).getJoints false = [] := by
  refine ⟨.mk ['b'] {} { name := some ['j'], jtype := .revolute } [], by simp [Moving, Frame.joint], ?_⟩
  rw [(C13_get_joints_partial _).1]
  simp [Frame.children, preorderL]

/-! ## C14 -/

/-- moving frames in post-order with the links at or below them -/
theorem jointsAndChildLinks_aux :
    (∀ f : Frame, f.jointsAndChildLinks.2 = (preorder f).map Frame.link ∧
      f.jointsAndChildLinks.1.Perm (((preorder f).filter fun g => decide (Moving g.joint)).map
        fun g => (g.joint, (preorder g).map Frame.link))) := by
  intro f
  exact jcl f
where
  jcl : (f : Frame) → f.jointsAndChildLinks.2 = (preorder f).map Frame.link ∧
      f.jointsAndChildLinks.1.Perm (((preorder f).filter fun g => decide (Moving g.joint)).map
        fun g => (g.joint, (preorder g).map Frame.link))
    | .mk n l j cs => by
      obtain ⟨h1, h2⟩ := jclL cs
      refine ⟨by simp [Frame.jointsAndChildLinks, preorder, Frame.link, h1], ?_⟩
      simp only [Frame.jointsAndChildLinks]
      rw [preorder, List.filter_cons]
      by_cases h : j.jtype = .fixed
      · simp only [Moving, Frame.joint, h, ne_eq, not_true, decide_false, Bool.false_eq_true, if_false,
          bne_self_eq_false, List.append_nil]
        exact h2
      · have hb : (j.jtype != .fixed) = true := by simpa using h
        simp only [Moving, Frame.joint, ne_eq, h, not_false_iff, decide_true, if_true, hb, List.map_cons]
        refine (List.perm_append_comm).trans ?_
        simp only [List.cons_append, List.nil_append]
        rw [show (preorder (Frame.mk n l j cs)).map Frame.link = l :: (Frame.jointsAndChildLinksL cs).2 by
          simp [preorder, Frame.link, h1]]
        exact h2.cons _
  jclL : (fs : List Frame) → (Frame.jointsAndChildLinksL fs).2 = (preorderL fs).map Frame.link ∧
      (Frame.jointsAndChildLinksL fs).1.Perm (((preorderL fs).filter fun g => decide (Moving g.joint)).map
        fun g => (g.joint, (preorder g).map Frame.link))
    | [] => by simp [Frame.jointsAndChildLinksL, preorderL]
    | c :: cs => by
      obtain ⟨h1, h2⟩ := jcl c
      obtain ⟨h3, h4⟩ := jclL cs
      refine ⟨by simp [Frame.jointsAndChildLinksL, preorderL, h1, h3], ?_⟩
      simp only [Frame.jointsAndChildLinksL, preorderL, List.filter_append, List.map_append]
      exact h2.append h4

theorem below_iff_preorder (f g : Frame) : g ∈ preorder f ↔ Below f g := by
  constructor
  · intro h
    obtain ⟨p, hp, hl⟩ := exists_path h
    have hfp : f ∈ p := by
      clear hl
      induction hp with
      | single => simp
      | snoc p a c _ _ ih => simp only [List.mem_append] at ih ⊢; tauto
    exact path_below hp f hfp g hl
  · intro h
    exact below_preorder (by rw [preorder_eq]; simp) h

/-- C14: the generator yields every moving joint exactly once, each with the links of the frames at or
below its frame (in depth-first order). -/
theorem C14_joints_and_child_links (root : Frame) :
    (Chain.init root).getJointsAndChildLinks.Perm
      (((preorder root).filter fun g => decide (Moving g.joint)).map
        fun g => (g.joint, (preorder g).map Frame.link)) ∧
    ∀ f g, g ∈ preorder f ↔ Below f g :=
  ⟨(jointsAndChildLinks_aux root).2, below_iff_preorder⟩

example : (preorder exTree).filter (fun g => decide (Moving g.joint)) ≠ [] := by
  simp [exTree, preorder, preorderL, Frame.joint, Moving]

/-! ## C15 -/

theorem zip_limits (root : Frame) : List.zip (Chain.init root).low (Chain.init root).high =
    (movingJoints root).map fun j => (j.limits.map Prod.fst |>.getD .ninf, j.limits.map Prod.snd |>.getD .pinf) := by
  rw [(C07_limits root).1, (C07_limits root).2.1, zip_map_map]

/-- C15: `clamp` keeps the number of joints; a joint without limits is unchanged; a limited joint
(`lo ≤ hi`) lands in its interval (unless its value is NaN) and is unchanged when already inside. -/
theorem C15_clamp (root : Frame) (th : List Fl) (hlen : th.length = (movingJoints root).length) :
    ∃ out, (Chain.init root).clamp th = .ok out ∧ out.length = th.length ∧
      ∀ (i : ℕ) (x : Fl) (j : Joint), th[i]? = some x → (movingJoints root)[i]? = some j → ∃ y, out[i]? = some y ∧
        (j.limits = none → y = x) ∧
        ∀ lo hi, j.limits = some (lo, hi) → Fl.le lo hi →
          (x ≠ .nan → Fl.le lo y ∧ Fl.le y hi) ∧ (Fl.le lo x → Fl.le x hi → y = x) := by
  unfold Chain.clamp
  rw [zip_limits]
  simp only [broadcast2, List.length_map, hlen, if_true]
  refine ⟨_, rfl, by simp [hlen], ?_⟩
  intro i x j hx hj
  refine ⟨_, by simp [List.getElem?_map, List.getElem?_zip_eq_some, List.zip, List.getElem?_zipWith, hx, hj]; rfl, ?_, ?_⟩
  · intro h0
    simp only [h0, Option.map_none, Option.getD_none]
    exact Fl.clamp_unlimited x
  · intro lo hi h0 hle
    simp only [h0, Option.map_some, Option.getD_some]
    exact ⟨fun hx => Fl.clamp_mem hx hle, fun h1 h2 => Fl.clamp_of_mem h1 h2⟩

/-- C15: clamping twice is clamping once. -/
theorem C15_idempotent (root : Frame) (th out : List Fl) (hlen : th.length = (movingJoints root).length)
    (h : (Chain.init root).clamp th = .ok out) : (Chain.init root).clamp out = .ok out := by
  unfold Chain.clamp at *
  rw [zip_limits] at *
  simp only [broadcast2, List.length_map, hlen, if_true] at h
  have h' : ((th.zip ((movingJoints root).map fun j => (j.limits.map Prod.fst |>.getD .ninf,
    j.limits.map Prod.snd |>.getD .pinf))).map fun x => Fl.clamp x.1 x.2.1 x.2.2) = out := Except.ok.inj h
  have hl : out.length = (movingJoints root).length := by rw [← h']; simp [hlen]
  simp only [broadcast2, List.length_map, hl, if_true]
  refine congrArg Except.ok ?_
  rw [← h']
  generalize ((movingJoints root).map fun j => (j.limits.map Prod.fst |>.getD .ninf,
    j.limits.map Prod.snd |>.getD .pinf)) = lims
  clear h h' hl hlen
  induction th generalizing lims with
  | nil => simp
  | cons x th ih =>
    cases lims with
    | nil => simp
    | cons l lims => simp [ih, Fl.clamp_idem]

example : ∃ j ∈ movingJoints exTree, j.limits = some (.fin (-1), .fin 2) ∧ Fl.le (.fin (-1)) (.fin 2) := by
  refine ⟨{ name := some ['j', '1'], jtype := .revolute, axis := ![0, 0, 1],
            limits := some (.fin (-1), .fin 2) }, ?_, rfl, by simp; norm_num⟩
  simp [exTree, movingJoints, preorder, preorderL, Frame.joint, Moving]

/-! ## C64 -/

theorem strL_lines : ∀ (fs : List Frame) (pre : Name) (d : ℕ), pre.length = 4 * d →
    ∃ lines : List Name, Frame.strL pre fs = (lines.map fun l => l ++ ['\n']).flatten ∧
      List.Forall₂ ShowsFrame lines (preorderDepthL (d + 1) fs)
  | [], pre, d, h => ⟨[], by simp [Frame.strL], by simp [preorderDepthL]⟩
  | .mk n l j gs :: cs, pre, d, h => by
    have hpt : ∀ b : Bool, (if b = true then strLast else strTee).length = 4 := by intro b; cases b <;> rfl
    have hext : ∀ b : Bool, (if b = true then strSpace else strBranch).length = 4 := by intro b; cases b <;> rfl
    obtain ⟨l1, e1, f1⟩ := strL_lines gs (pre ++ if cs.isEmpty = true then strSpace else strBranch) (d + 1)
      (by rw [List.length_append, hext, h]; ring)
    obtain ⟨l2, e2, f2⟩ := strL_lines cs pre d h
    refine ⟨(pre ++ (if cs.isEmpty = true then strLast else strTee) ++ n) :: (l1 ++ l2), ?_, ?_⟩
    · have hg : (if gs.isEmpty = true then [] else
          Frame.strL (pre ++ if cs.isEmpty = true then strSpace else strBranch) gs) =
          (l1.map fun l => l ++ ['\n']).flatten := by
        rw [← e1]
        cases gs <;> simp [Frame.strL]
      simp only [Frame.strL, hg, e2, List.map_cons, List.flatten_cons, List.map_append, List.flatten_append,
        List.append_assoc]
    · simp only [preorderDepthL, preorderDepth, List.cons_append]
      refine List.Forall₂.cons ⟨_, rfl, ?_⟩ (List.rel_append f1 f2)
      rw [List.length_append, hpt, h]; ring

mutual
theorem preorderDepth_fst (d : ℕ) : ∀ f : Frame, (preorderDepth d f).map Prod.fst = preorder f
  | .mk n l j cs => by simp [preorderDepth, preorder, preorderDepthL_fst (d + 1) cs]
theorem preorderDepthL_fst (d : ℕ) : ∀ fs : List Frame, (preorderDepthL d fs).map Prod.fst = preorderL fs
  | [] => by simp [preorderDepthL, preorderL]
  | c :: cs => by simp [preorderDepthL, preorderL, preorderDepth_fst d c, preorderDepthL_fst d cs]
end

/-- C64: the printed tree consists of one line per frame, in depth-first order, each made of
`4 * depth` characters of drawing followed by the frame's name. -/
theorem C64_print_tree (root : Frame) :
    ∃ lines : List Name, Frame.str [] true root = (lines.map fun l => l ++ ['\n']).flatten ∧
      List.Forall₂ ShowsFrame lines (preorderDepth 0 root) ∧
      (preorderDepth 0 root).map Prod.fst = preorder root := by
  cases root with
  | mk n l j cs =>
    obtain ⟨ls, e, f⟩ := strL_lines cs [] 0 rfl
    refine ⟨n :: ls, ?_, ?_, preorderDepth_fst 0 _⟩
    · simp [Frame.str, e]
    · rw [preorderDepth]
      exact List.Forall₂.cons ⟨[], by simp [Frame.name], rfl⟩ f

example : Frame.str [] true (.mk ['r'] {} {} [.mk ['a'] {} {} [.mk ['c'] {} {} []], .mk ['b'] {} {} []]) =
    ['r', '\n', '├', '─', '─', ' ', 'a', '\n', '│', ' ', ' ', ' ', '└', '─', '─', ' ', 'c', '\n',
     '└', '─', '─', ' ', 'b', '\n'] := by
  simp [Frame.str, Frame.strL, strTee, strLast, strBranch]

end PK
